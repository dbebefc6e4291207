import Verif.Spec.Validation

/-! # Specification for C55 and C80: proofs in which each zone has one parent -/

namespace Dnssec.Spec

open Dnssec

/-- No two zones of the chain of trust have signed a DS set for the same name: each zone has one parent, as in the DNS. -/
def OneParent (S : SigCheck) (p : Platform) (inp : List RR) : Prop :=
  ∀ z z' s s', Reached S p inp z → Reached S p inp z' → SignedBy S inp z s → SignedBy S inp z' s' → s.ty = 43 → s'.ty = 43 →
    s.name = s'.name → z = z'

/-- How many RRSIGs over DS sets there are. -/
def delegationCount (inp : List RR) : Nat := inp.countP fun | .rrsig s => s.ty = 43 | _ => false

end Dnssec.Spec
