import Verif.Model.Conn
import Verif.Spec.Tasks
import Verif.Spec.Write

/-! # Specification: what a client that reads slowly has received (C122) -/

set_option autoImplicit false

namespace Dnssec.Spec

open Dnssec

/-- The number of connections accepted in a run. -/
def connections (evs : List ConnEvent) : Nat := evs.countP fun e => match e with | .accept _ _ _ => true | _ => false

/-- What the client has received so far. -/
def got : Conn → Bytes
  | .working _ _ => []
  | .writing _ _ g => g
  | .closed g => g
  | .panicked => []

/-- How often a connection waits at most: for its request and the lookup (`waits`), and once for each octet of the response. -/
def connWaits (dbg : Bool) (client : List SockEvent) (resolver : Option (Nat × List Bytes)) : Nat :=
  waits client resolver + match serveTcp dbg (wholeConnection resolver) client with
    | .done _ out => out.length
    | .panicked => 0

/-- The first `m` events of a run that never ends. -/
def firstEvents (σ : Nat → ConnEvent) (m : Nat) : List ConnEvent := (List.range m).map σ

/-- What the `i`th task waits for happens again and again, for as long as it waits. -/
def Fair (σ : Nat → ConnEvent) (i : Nat) : Prop := ∀ n, ∃ m, n ≤ m ∧ σ m = .run i

end Dnssec.Spec
