import Verif.Spec.Validation

/-! # Two builds of the crate that differ in how they sort -/

namespace Dnssec.Spec

/-- Two builds of the crate with the same cryptography. Their sorting algorithms may order elements that compare equal differently, which
the documentation of `sort_unstable_by` leaves open. -/
structure SameButSorting (p p' : Platform) : Prop where
  sha1 : p.sha1 = p'.sha1
  sha256 : p.sha256 = p'.sha256
  rsaSha256 : p.rsaSha256 = p'.rsaSha256
  rsaSha512 : p.rsaSha512 = p'.rsaSha512
  ecdsaP256 : p.ecdsaP256 = p'.ecdsaP256
  ecdsaP384 : p.ecdsaP384 = p'.ecdsaP384
  ed25519 : p.ed25519 = p'.ed25519

/-- No two expansions of wildcards in different zones have the same next closer name. -/
def OwnDenials (S : SigCheck) (p : Platform) (inp : List RR) : Prop :=
  ∀ z s z' s', Reached S p inp z → SignedBy S inp z s → s.ty ≠ 43 → Expanded s →
    Reached S p inp z' → SignedBy S inp z' s' → s'.ty ≠ 43 → Expanded s' →
    ∀ name, s.name.trailingNLabels (s.labels + 1) = some name → s'.name.trailingNLabels (s'.labels + 1) = some name → z = z'

/-- `m` is `l` sorted by `cmp`, in one of the possible ways. -/
def IsSorted {α : Type} (cmp : α → α → Ordering) (l m : List α) : Prop :=
  m.Perm l ∧ m.Pairwise (fun a b => cmp a b ≠ .gt)

end Dnssec.Spec
