import Verif.Model.Conn

/-! # Model of the sockets that the HTTP server has open -/

set_option autoImplicit false

namespace Dnssec

/-- src/query.rs:361: the connection to the resolver is opened by the lookup and dropped when it returns. src/http.rs:49-51: the task owns the socket of the client.
Simplified: a task that is being connected has its second socket, also if there are no file descriptors left for it, so that this is an upper bound. -/
def Phase.sockets : Phase → Nat
  | .reading _ => 1
  | .connecting _ _ => 2
  | .driving _ _ _ _ => 2
  | .finished _ _ => 0
  | .panicked => 0

/-- src/http.rs:49-145: the socket of the client is open until the task returns or panics. -/
def Conn.sockets : Conn → Nat
  | .working t _ => t.phase.sockets
  | .writing _ _ _ => 1
  | .closed _ => 0
  | .panicked => 0

/-- src/http.rs:47-51: the sockets open besides the listening one. -/
def ConnServer.sockets (s : ConnServer) : Nat := (s.conns.map Conn.sockets).sum

end Dnssec
