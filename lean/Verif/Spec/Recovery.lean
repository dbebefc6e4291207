import Verif.Spec.Operators

/-! # Specification for C115: operators who have lost keys -/

namespace Dnssec.Spec

open Dnssec

/-- The operator of the zone `z` is honest, except that some keys, which are no longer theirs (`W.owns`) and with which anybody may sign
anything, are vouched for by statements that expire by the time `T`. -/
structure HonestSince (p : Platform) (W : Operators) (T : Nat) (z : Name) : Prop where
  /-- Whatever verifies under a key that is still the operator's was signed by the operator. -/
  unforgeable : ∀ (k : DnsKey) (msg s : Bytes), W.owns z k → CryptoOk p k.alg k.pubkey msg s → ∃ st, W.signed z st ∧ st.message = msg
  /-- Statements are about names and data that fit into messages. -/
  fits : ∀ st, W.signed z st → (∀ l ∈ st.owner ++ st.signer, l ≠ [] ∧ l.length ≤ 63) ∧ ∀ d ∈ st.rdatas, d.length ≤ 65535
  /-- Key sets are not at wildcards, and the ones at the name of the zone contain only keys that are still the operator's, or expire by
  the time `T`. -/
  keySets : ∀ st, W.signed z st → st.ty = 48 → st.owner.head? ≠ some (ascii "*") ∧
    (HasLabels z st.owner → ∀ k : DnsKey, k.name = z → rdata (.dnskey k) ∈ st.rdatas → W.owns z k ∨ instant st.expiration ≤ T)
  /-- Delegations are not at wildcards, and vouch only for keys that still are those of the zone delegated to, or expire by the time
  `T`. -/
  delegations : ∀ st, W.signed z st → st.ty = 43 → st.owner.head? ≠ some (ascii "*") ∧
    ∀ (c : Name) (dses : List DS), HasLabels c st.owner → (∀ d ∈ dses, d.name = c) →
      (∀ x, x ∈ st.rdatas ↔ ∃ d ∈ dses, rdata (.ds d) = x) → ∀ k : DnsKey, k.name = c → Anchored p dses k →
        W.owns c k ∨ instant st.expiration ≤ T

end Dnssec.Spec
