import Verif.Spec.Operators

/-! # Specification for C98: operators who do not contradict themselves -/

namespace Dnssec.Spec

open Dnssec

/-- The statement is valid at the time `t`. -/
def InForce (st : Statement) (t : Nat) : Prop := instant st.inception ≤ t ∧ t < instant st.expiration

/-- At the time `t` operators stand by one record set of type `ty` at the name `n`, counting those of wildcards. -/
def OneAnswer (W : Operators) (t : Nat) (n : Name) (ty : UInt16) : Prop :=
  ∀ z st z' st', W.signed z st → W.signed z' st' → st.ty = ty → st'.ty = ty → OwnedBy n st.owner → OwnedBy n st'.owner →
    InForce st t → InForce st' t → ∀ d, d ∈ st.rdatas ↔ d ∈ st'.rdatas

/-- At the time `t` operators stand by one record set for each owner name and type. -/
def OneSetPerOwner (W : Operators) (t : Nat) : Prop :=
  ∀ z st z' st', W.signed z st → W.signed z' st' → st.ty = st'.ty → st.owner = st'.owner →
    InForce st t → InForce st' t → ∀ d, d ∈ st.rdatas ↔ d ∈ st'.rdatas

end Dnssec.Spec
