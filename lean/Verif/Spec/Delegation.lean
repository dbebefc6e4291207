import Verif.Spec.Misc
import Verif.Spec.Chain

/-! # Specification for C101: NSEC records at delegations -/

namespace Dnssec.Spec

open Dnssec

/-- The labels of a name at or below the one with the labels `zone`, up to case. -/
def Within (zone labels : List Bytes) : Prop := ∃ pre suf, labels = pre ++ suf ∧ suf.map (·.map foldCase) = zone.map (·.map foldCase)

/-- An NSEC record as the parent zone has it at the delegation to `child` (RFC 4035 2.3): with the type NS and without SOA, and, as the
names of the child are not in the parent zone, with a next name after the child's that is not in the child. RFC 6840 4.1 calls it an
ancestor delegation NSEC, which must not be used to assume non-existence of any names below its owner. -/
structure DelegationNsec (child : Name) (n : NSec) : Prop where
  owner : n.name = child
  ns : n.types.containsType 2 = true
  noSoa : n.types.containsType 6 = false
  next : ∃ zone labels, HasLabels child zone ∧ HasLabels n.nextName labels ∧ CanonicalLt zone labels ∧ ¬ Within zone labels

/-- `name` is below `zone`. -/
def Below (zone : Name) (name : Bytes) : Prop := ∃ x pre labels, HasLabels zone labels ∧ HasLabels ⟨name⟩ (x :: (pre ++ labels))

end Dnssec.Spec
