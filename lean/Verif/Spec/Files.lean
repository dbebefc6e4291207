import Verif.Model.Files
import Verif.Spec.Conn

/-! # Specification: a server with limited file descriptors (C121) -/

set_option autoImplicit false

namespace Dnssec.Spec

open Dnssec

/-- A run of the server that is possible when it may have `limit` sockets open besides the one it listens on, and nothing else makes accepting
fail: a connection is accepted only if there is a descriptor left for it, and accepting fails only if there is none. -/
def Affordable (dbg : Bool) (limit : Nat) (evs : List ConnEvent) : Prop :=
  ∀ pre e post, evs = pre ++ e :: post →
    (e = .acceptFails → limit ≤ (runConns dbg pre).sockets) ∧ (∀ c r w, e = .accept c r w → (runConns dbg pre).sockets < limit)

/-- The client is connected. -/
def open? : Conn → Bool
  | .closed _ => false
  | .panicked => false
  | _ => true

/-- The number of clients connected at the same time. -/
def clients (s : ConnServer) : Nat := s.conns.countP open?

/-- Every client has been served as far as it can be: its task has been woken as often as it has to wait. -/
def AllWoken (dbg : Bool) (evs : List ConnEvent) : Prop :=
  ∀ pre c r w post, evs = pre ++ .accept c r w :: post → connWaits dbg c r ≤ post.count (.run (connections pre))

end Dnssec.Spec
