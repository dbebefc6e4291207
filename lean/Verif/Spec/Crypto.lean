import Verif.Model.Crypto
import Verif.Spec.Validation

/-! # Specification for C80: the cryptographic work of verification -/

namespace Dnssec.Spec

open Dnssec

/-- How many signatures are checked. -/
def signatureChecks (ops : List CryptoOp) : Nat := ops.countP fun | .verify .. => true | _ => false

/-- How often this signature is checked. -/
def checksOf (s : RRSig) (ops : List CryptoOp) : Nat := ops.countP fun | .verify s' .. => s' = s | _ => false

/-- How many digests of keys are computed. -/
def keyDigests (ops : List CryptoOp) : Nat := ops.countP fun | .digest .. => true | _ => false

/-- How many SHA-1 computations are done for NSEC3 hashes. -/
def nsec3Hashes (ops : List CryptoOp) : Nat := ops.countP fun | .hash _ => true | _ => false

/-- Numbers of records in the input. -/
def sigCount (inp : List RR) : Nat := inp.countP fun | .rrsig _ => true | _ => false
def keyCount (inp : List RR) : Nat := inp.countP fun | .dnskey _ => true | _ => false
def dsCount (inp : List RR) : Nat := inp.countP fun | .ds _ => true | _ => false

/-- An operation on behalf of an authenticated part of the input: a signature over a key set is checked with a key of the zone that
the trust anchors vouch for, any other signature with a key of its signer, whose key set has been authenticated before; digests are of
keys of a zone and compared with its trust anchors. In each case the zone is one that the chain of trust from the root leads to. -/
def Warranted (p : Platform) (inp : List RR) : CryptoOp → Prop
  | .verify s k _ => RR.rrsig s ∈ inp ∧ RR.dnskey k ∈ inp ∧ Eligible s k ∧ Reached (codeCheck p) p inp k.name ∧
      ((s.ty = 48 ∧ s.name = k.name ∧ Anchored p (anchors inp k.name) k) ∨
       (s.ty ≠ 48 ∧ s.keyName = k.name ∧ ∃ ksig, ZoneKeysOk (codeCheck p) p inp k.name ksig))
  | .digest k d => RR.dnskey k ∈ inp ∧ d ∈ anchors inp k.name ∧ d.alg = k.alg ∧ d.keyTag.toNat = keyTag (rdata (.dnskey k)) ∧
      Reached (codeCheck p) p inp k.name
  | .hash _ => True

/-- A signature that turns out bad. -/
def Bad (p : Platform) : CryptoOp → Prop
  | .verify s k msg => ¬ CryptoOk p s.alg k.pubkey msg s.signature
  | _ => False

end Dnssec.Spec
