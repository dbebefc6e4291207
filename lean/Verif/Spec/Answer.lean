import Verif.Spec.Published
import Verif.Spec.World

/-! # Specification for C95: what the answer to a question says about a name -/

namespace Dnssec.Spec

open Dnssec

/-- An alias in the answer takes `n` to another name: the CNAME at `n`, or if there is none a DNAME above it (RFC 1034 3.6.2, RFC 6672). -/
inductive World.Redirects (w : World) (n : Name) : Name → Prop
  | cname (s : SignedSet) (c : CName) : s ∈ w.answer → s.owner = n → s.records = [.cname c] → w.Redirects n c.canonicalName
  | dname (s : SignedSet) (d : DName) (m : Name) : (∀ t ∈ w.answer, ¬ (t.owner = n ∧ t.ty = 5)) → s ∈ w.answer → .dname d ∈ s.records →
      DnameRedirects d n m → w.Redirects n m

/-- Aliases in the answer lead from `n` to a name. -/
inductive World.Leads (w : World) (n : Name) : Name → Prop
  | start : w.Leads n n
  | step (m m' : Name) : w.Leads n m → w.Redirects m m' → w.Leads n m'

/-- There is no alias for `n` in the answer. -/
def World.Ends (w : World) (n : Name) : Prop := (∀ s ∈ w.answer, ¬ (s.owner = n ∧ s.ty = 5)) ∧
  ∀ s ∈ w.answer, ∀ d, RR.dname d ∈ s.records → ∀ above ds, HasLabels d.name ds → HasLabels n (above ++ ds) → above = []

/-- The aliases are as they should be: one CNAME at a name; one DNAME, not of or to the root, for a name. And, as the code compares names
as texts: a name on the way that ends like the owner of a DNAME is below it. -/
structure World.PlainAliases (w : World) (n : Name) : Prop where
  one : ∀ s ∈ w.answer, s.ty = 5 → ∃ r, s.records = [r]
  dnames : ∀ m, w.Leads n m → ∀ s ∈ w.answer, ∀ d, RR.dname d ∈ s.records → (∃ pre, m.bytes = pre ++ d.name.bytes) →
    (∃ above ds ts, above ≠ [] ∧ ds ≠ [] ∧ ts ≠ [] ∧ HasLabels m (above ++ ds) ∧ HasLabels d.name ds ∧ HasLabels d.delegationName ts) ∧
    ∀ s' ∈ w.answer, ∀ d', RR.dname d' ∈ s'.records → (∃ pre, m.bytes = pre ++ d'.name.bytes) → d' = d

end Dnssec.Spec
