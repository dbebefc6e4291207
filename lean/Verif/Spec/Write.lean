import Verif.Model.Write

/-! # Specification of sockets that take writes -/

namespace Dnssec.Spec

open Dnssec

/-- A write that takes nothing. -/
def TakesNothing (e : WriteEvent) : Prop := e = .fails ∨ e = .takes 0

/-- The connection is gone once a write fails. -/
def Permanent (es : List WriteEvent) : Prop :=
  ∀ before e after, es = before ++ e :: after → TakesNothing e → ∀ e' ∈ after, TakesNothing e'

/-- Every write takes something, for long enough to write `n` bytes. -/
def Live (n : Nat) (es : List WriteEvent) : Prop := (∀ e ∈ es, ¬ TakesNothing e) ∧ n ≤ es.length

end Dnssec.Spec
