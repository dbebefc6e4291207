import Verif.Spec.Operators
import Verif.Spec.Resolve

/-! # Specification for C94: the aliases operators have published -/

namespace Dnssec.Spec

open Dnssec

/-- RFC 6672 2.2: a DNAME redirects the names below its owner (not the owner itself), replacing the owner's labels by the target's. -/
def DnameRedirects (d : DName) (n m : Name) : Prop := ∃ above ds ts, above ≠ [] ∧ HasLabels n (above ++ ds) ∧ HasLabels d.name ds ∧
  HasLabels d.delegationName ts ∧ HasLabels m (above ++ ts)

/-- The same with names as texts, as in the code. -/
def DnameTextually (d : DName) (n m : Name) : Prop :=
  ∃ pre, n.bytes = pre ++ d.name.bytes ∧ Denotes (pre ++ d.delegationName.bytes) m

/-- Aliases that operators have signed lead from `n` to a name. `D` says what DNAMEs redirect. -/
inductive Leads (W : Operators) (D : DName → Name → Name → Prop) (n : Name) : Name → Prop
  | start : Leads W D n n
  | cname (c : CName) (z : Name) (st : Statement) : Leads W D n c.name → W.signed z st → st.ty = 5 → OwnedBy c.name st.owner →
      rdata (.cname c) ∈ st.rdatas → Obtainable c.canonicalName → Leads W D n c.canonicalName
  | dname (d : DName) (m m' : Name) (z : Name) (st : Statement) : Leads W D n m → W.signed z st → st.ty = 39 → OwnedBy d.name st.owner →
      rdata (.dname d) ∈ st.rdatas → D d m m' → Leads W D n m'

end Dnssec.Spec
