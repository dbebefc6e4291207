import Verif.Spec.Validation

/-! # Specification for C89: when a signature is valid -/

namespace Dnssec.Spec

open Dnssec

/-- RFC 1982 3.2 with 32 bits: `a` is `b` or comes before it. -/
def SerialLe (a b : Nat) : Prop := (b + 2 ^ 32 - a) % 2 ^ 32 < 2 ^ 31

/-- RFC 4034 3.1.5: at the time `T` (seconds since 1970) the signature is valid; times are compared as serial numbers. -/
def ValidAt (s : RRSig) (T : Nat) : Prop :=
  SerialLe s.inception.toNat (T % 2 ^ 32) ∧ SerialLe (T % 2 ^ 32) s.expiration.toNat

instance (a b : Nat) : Decidable (SerialLe a b) := by unfold SerialLe; infer_instance
instance (s : RRSig) (T : Nat) : Decidable (ValidAt s T) := by unfold ValidAt; infer_instance

end Dnssec.Spec
