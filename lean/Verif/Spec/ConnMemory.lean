import Verif.Spec.Files
import Verif.Spec.Memory

/-! # What the HTTP server keeps for a client that reads slowly (C112) -/

set_option autoImplicit false

namespace Dnssec.Spec

open Dnssec

/-- The number of octets that are kept for a connection: while it works those of its task, then the response, all of it until the last octet has been written. -/
def kept : Conn → Nat
  | .working t _ => held t.phase
  | .writing rest _ written => written.length + rest.length
  | .closed _ => 0
  | .panicked => 0

/-- The same for all connections together. -/
def keptForAll (s : ConnServer) : Nat := (s.conns.map kept).sum

end Dnssec.Spec
