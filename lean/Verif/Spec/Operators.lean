import Verif.Spec.Trust

/-! # Specification for C69: what the operators of zones sign -/

namespace Dnssec.Spec

open Dnssec

/-- What the operator of a zone signs: a record set, given by its owner name, type and RDATA, with the fields of the RRSIG. The type
may be any type, not only those the crate knows. -/
structure Statement where
  ty : UInt16
  alg : UInt8
  labels : UInt8
  origTtl : UInt32
  expiration : UInt32
  inception : UInt32
  keyTag : UInt16
  signer : List Bytes
  owner : List Bytes
  rdatas : List Bytes

/-- RFC 4034 3.1.8.1: the bytes that are signed. -/
def Statement.message (s : Statement) : Bytes :=
  be16 s.ty ++ [s.alg, s.labels] ++ be32 s.origTtl ++ be32 s.expiration ++ be32 s.inception ++ be16 s.keyTag ++ wire s.signer ++
    (s.rdatas.map fun d =>
      wire s.owner ++ be16 s.ty ++ be16 1 ++ be32 s.origTtl ++ be16 (UInt16.ofNat d.length) ++ d).flatten

/-- All there is to know about the operators of zones: which keys are theirs, and what they have signed with these. -/
structure Operators where
  owns : Name → DnsKey → Prop
  signed : Name → Statement → Prop

/-- The operator of the zone `z` does what operators do, and nobody else can sign in their place. -/
structure HonestOperator (p : Platform) (W : Operators) (z : Name) : Prop where
  /-- Whatever verifies under a key of the zone was signed by the operator. -/
  unforgeable : ∀ (k : DnsKey) (msg s : Bytes), W.owns z k → CryptoOk p k.alg k.pubkey msg s → ∃ st, W.signed z st ∧ st.message = msg
  /-- Statements are about names and data that fit into messages. -/
  fits : ∀ st, W.signed z st → (∀ l ∈ st.owner ++ st.signer, l ≠ [] ∧ l.length ≤ 63) ∧ ∀ d ∈ st.rdatas, d.length ≤ 65535
  /-- Key sets are not at wildcards, and the ones at the name of the zone contain only keys of the zone. -/
  keySets : ∀ st, W.signed z st → st.ty = 48 → st.owner.head? ≠ some (ascii "*") ∧
    (HasLabels z st.owner → ∀ k : DnsKey, k.name = z → rdata (.dnskey k) ∈ st.rdatas → W.owns z k)
  /-- Delegations are not at wildcards, and vouch only for keys of the zone delegated to. -/
  delegations : ∀ st, W.signed z st → st.ty = 43 → st.owner.head? ≠ some (ascii "*") ∧
    ∀ (c : Name) (dses : List DS), HasLabels c st.owner → (∀ d ∈ dses, d.name = c) →
      (∀ x, x ∈ st.rdatas ↔ ∃ d ∈ dses, rdata (.ds d) = x) → ∀ k : DnsKey, k.name = c → Anchored p dses k → W.owns c k

/-- The name `n` is covered by the wildcard `*.suf`: it is below `suf`. -/
def WildcardFor (n : Name) (suf : List Bytes) : Prop := n ≠ ⟨[46]⟩ ∧ (suf = [] ∨ ∃ pre, n.bytes = pre ++ 46 :: text suf)

/-- The name `n` is the owner name `owner` or an expansion of it. -/
def OwnedBy (n : Name) (owner : List Bytes) : Prop :=
  HasLabels n owner ∨ ∃ suf, owner = ascii "*" :: suf ∧ WildcardFor n suf

end Dnssec.Spec
