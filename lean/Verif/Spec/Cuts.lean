import Verif.Spec.Operators

/-! # Specification for C118: zones leave alone what they have delegated -/

set_option autoImplicit false

namespace Dnssec.Spec

open Dnssec

/-- The operator of `z` has delegated the name (by its labels), or one above it. -/
def DelegatedBy (W : Operators) (z : Name) (name : List Bytes) : Prop :=
  ∃ cut, W.signed z cut ∧ cut.ty = 43 ∧ AtOrBelow name cut.owner

/-- RFC 4035 2.2, 2.4: no operator signs records at or below the names they delegate, except for those which belong to the delegation: DS, NSEC and NSEC3. -/
def RespectsCuts (W : Operators) : Prop :=
  ∀ z st, W.signed z st → st.ty ≠ 43 → st.ty ≠ 47 → st.ty ≠ 50 → ¬ DelegatedBy W z st.owner

end Dnssec.Spec
