import Verif.Model.Server

/-! # Specification: what a client of the server gets -/

namespace Dnssec.Spec

/-- The connection to the resolver when the bytes arrive all at once. -/
def wholeConnection : Option (Nat × List Bytes) → Option Stream
  | none => none
  | some (writes, chunks) => some ⟨chunks.flatten, writes, []⟩

/-- How often a connection with these peers has to wait at most: once for each event of the client, for the connection to the resolver, for
each piece from the resolver, and for the end of a stream. -/
def waits (client : List SockEvent) : Option (Nat × List Bytes) → Nat
  | none => client.length + 2
  | some (_, chunks) => client.length + chunks.length + 2

/-- The connections accepted in a run. -/
def accepted : List ServerEvent → List (List SockEvent × Option (Nat × List Bytes))
  | [] => []
  | .accept client resolver :: evs => (client, resolver) :: accepted evs
  | _ :: evs => accepted evs

/-- The task has ended with this outcome. -/
def EndsWith (t : Task) : Served → Prop
  | .done asked out => t.phase = .finished asked out
  | .panicked => t.phase = .panicked

/-- The task has not ended; nothing has been written to the client. -/
def Unfinished (t : Task) : Prop := (∀ asked out, t.phase ≠ .finished asked out) ∧ t.phase ≠ .panicked

end Dnssec.Spec
