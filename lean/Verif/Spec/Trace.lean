import Verif.Spec.Crypto

/-! # Specification for C80: that the operations listed are all there are -/

namespace Dnssec.Spec

open Dnssec

/-- `p` and `p'` give the same answer to this one operation. -/
def SameAnswer (p p' : Platform) : CryptoOp → Prop
  | .verify s k msg => CryptoOk p s.alg k.pubkey msg s.signature ↔ CryptoOk p' s.alg k.pubkey msg s.signature
  | .digest k d => (d.digestType = 1 → p.sha1 (digestInput k) = p'.sha1 (digestInput k)) ∧
      (d.digestType = 2 → p.sha256 (digestInput k) = p'.sha256 (digestInput k))
  | .hash x => p.sha1 x = p'.sha1 x

/-- The input of round `i` of the iterated hash. -/
def roundInput (p : Platform) (n : NSec3) (name : Bytes) : Nat → Bytes
  | 0 => nameWire name ++ n.salt
  | i + 1 => iteratedHash p.sha1 n.salt (nameWire name) i ++ n.salt

end Dnssec.Spec
