import Verif.Model.Server
import Verif.Model.Write

/-! # Model of the HTTP server with clients that read slowly (src/http.rs:47-147): reading, looking up and writing, in small steps -/

set_option autoImplicit false

namespace Dnssec

/-- src/http.rs:50-145: a connection between two points where its task awaits I/O. `writes` is what the writes to the client are going to do (Model/Write). -/
inductive Conn
  /-- src/http.rs:51-130: the response is not ready -/
  | working (t : Task) (writes : List WriteEvent)
  /-- src/http.rs:131-144, awaiting `write_all`: what is left to write, and what the client has received -/
  | writing (rest : Bytes) (writes : List WriteEvent) (got : Bytes)
  /-- the task has returned and the connection is closed -/
  | closed (got : Bytes)
  | panicked
deriving DecidableEq

/-- The I/O awaited completes. A write takes some octets, and the task waits again if there are more. Simplified: the two `write_all` of lines 131-138 are one (what
differs if the first fails and the second succeeds is in Model/Write, C88). -/
def Conn.step (dbg : Bool) : Conn → Conn
  | .working t writes =>
    match (t.step dbg).phase with
    | .finished _ out => if out.isEmpty then .closed [] else .writing out writes []
    | .panicked => .panicked
    | _ => .working (t.step dbg) writes
  | .writing rest writes got =>
    match writes with
    | [] => .closed got
    | .fails :: _ => .closed got
    | .takes 0 :: _ => .closed got
    | .takes (n + 1) :: es =>
      if (rest.drop (n + 1)).isEmpty then .closed (got ++ rest) else .writing (rest.drop (n + 1)) es (got ++ rest.take (n + 1))
  | .closed got => .closed got
  | .panicked => .panicked

/-- The process. -/
structure ConnServer where
  alive : Bool
  conns : List Conn
deriving DecidableEq

/-- What can happen next: a connection is accepted (with what its peers are going to do), `accept` fails, or the I/O of a task completes and it continues. -/
inductive ConnEvent
  | accept (client : List SockEvent) (resolver : Option (Nat × List Bytes)) (writes : List WriteEvent)
  | acceptFails
  | run (task : Nat)
deriving DecidableEq

/-- src/http.rs:47-50: the accept loop, and the executor. -/
def ConnServer.step (dbg : Bool) (s : ConnServer) : ConnEvent → ConnServer
  | .accept client resolver writes => if s.alive then { s with conns := s.conns ++ [.working (Task.new client resolver) writes] } else s
  | .acceptFails => { s with alive := false }
  | .run i => if s.alive then { s with conns := s.conns.modify i (Conn.step dbg) } else s

/-- A run of the server from its start. -/
def runConns (dbg : Bool) (evs : List ConnEvent) : ConnServer := evs.foldl (ConnServer.step dbg) ⟨true, []⟩

end Dnssec
