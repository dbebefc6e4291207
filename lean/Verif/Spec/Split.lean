import Verif.Spec.Validation

/-! # Specification for C102: parts of proofs -/

namespace Dnssec.Spec

open Dnssec

/-- The records of a proof without the signatures that are not in `K`. -/
def withSigs (inp : List RR) (K : RRSig → Bool) : List RR := inp.filter fun | .rrsig s => K s | _ => true

/-- `part` consists of records of `whole`, in the same order. It is accepted, and verifies the records of `whole` of this name and type and nothing
else, for at least as long as `whole` is valid. -/
def ProvesAlone (dbg : Bool) (p : Platform) (whole : List RR) (v : Verified) (name : Name) (ty : UInt16) (part : List RR) : Prop :=
  part.Sublist whole ∧ ∃ fuel v', verifyRRStream dbg p fuel part = some (.ok v') ∧
    (∀ r, r ∈ v'.verifiedRrs ↔ r ∈ whole ∧ r.name = name ∧ r.ty = ty) ∧
    v'.validFrom ≤ v.validFrom ∧ v.expires ≤ v'.expires ∧ v.maxCacheTtl ≤ v'.maxCacheTtl

end Dnssec.Spec
