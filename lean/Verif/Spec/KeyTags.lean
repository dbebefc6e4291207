import Verif.Spec.Rollover

/-! # Specification for C105: keys with the same key tag (RFC 4034 section 8, RFC 4035 section 5.3.1) -/

namespace Dnssec.Spec

open Dnssec

/-- RFC 4035 5.3.1 and 5.3.3: "the validator MUST try each matching DNSKEY RR until either the signature is validated or the validator has
run out of matching public keys to try." The signature is good under some key whose tag, algorithm, protocol and flags match. -/
def GoodUnderSome (p : Platform) (sig : RRSig) (keys : List DnsKey) (records : List RR) : Prop :=
  (∀ r ∈ records, r.ty = sig.ty) ∧
  ∃ k ∈ keys, Eligible sig k ∧ ∃ msg, SignedMessage sig records msg ∧ CryptoOk p sig.alg k.pubkey msg sig.signature

/-- At most one of the keys matches the signature. -/
def OneMatch (sig : RRSig) (keys : List DnsKey) : Prop :=
  ∀ k ∈ keys, ∀ k' ∈ keys, Eligible sig k → Eligible sig k' → k = k'

end Dnssec.Spec
