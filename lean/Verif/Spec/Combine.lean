import Verif.Spec.Validation

/-! # Specification: combining proofs -/

namespace Dnssec.Spec

/-- `m` has the signatures of all `parts` and no others, and the record sets these are over are the same in `m` as in the parts (so parts
with signatures over the same set agree on it). Nothing is said about records that are not in such a set. -/
structure Combines (parts : List (List RR)) (m : List RR) : Prop where
  sigs : ∀ s, RR.rrsig s ∈ m ↔ ∃ a ∈ parts, RR.rrsig s ∈ a
  sets : ∀ a ∈ parts, ∀ s, RR.rrsig s ∈ a → (rrset m s.name s.ty).Perm (rrset a s.name s.ty)

/-- All signatures, other than those over key sets, are by zones to which the proof leads from the root. -/
def NoStraySigs (p : Platform) (inp : List RR) : Prop :=
  ∀ s, RR.rrsig s ∈ inp → s.ty ≠ 48 → Reached (codeCheck p) p inp s.keyName

end Dnssec.Spec
