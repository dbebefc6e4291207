import Verif.Model.Server
import Verif.Spec.Tasks

/-! # What the HTTP server keeps for a client (C112) -/

namespace Dnssec.Spec

open Dnssec

/-- The number of octets, received or to be sent, that a task keeps: the request as far as it has been read; the name looked up; the proof, the names asked for and the
response that is being received; what is written to the client. -/
def held : Phase → Nat
  | .reading buf => buf.length
  | .connecting name _ => name.bytes.length
  | .driving name _ b s => name.bytes.length + b.proof.length + (b.requested.map (·.bytes.length)).sum + s.incoming.length
  | .finished _ out => out.length
  | .panicked => 0

end Dnssec.Spec
