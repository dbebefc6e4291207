import Verif.Spec.World
import Verif.Spec.Misc

/-! # Specification for C100 -/

namespace Dnssec.Spec

open Dnssec

/-- At the time `T` all signatures in this world are valid (with times after 1997, 27 years of 365 days after 1970, which the crate takes
as they are). -/
def World.CurrentAt (w : World) (T : Nat) : Prop := ∀ s ∈ w.sets, ∀ sig ∈ s.sigs,
  27 * 365 * 86400 ≤ sig.inception.toNat ∧ sig.inception.toNat ≤ T ∧ 27 * 365 * 86400 ≤ sig.expiration.toNat ∧ T ≤ sig.expiration.toNat

end Dnssec.Spec
