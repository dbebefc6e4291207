import Verif.Model.Http

/-! # Model of writing a response to a client of the HTTP server (src/http.rs:131-144), with writes that are short or fail -/

namespace Dnssec

/-- What one write to the client's socket does: it takes up to `n` bytes, or fails. -/
inductive WriteEvent
  | takes (n : Nat)
  | fails
deriving DecidableEq

/-- tokio's `AsyncWriteExt::write_all` as its documentation says: it writes until the buffer is empty, a write fails, or takes nothing. The events are what the writes
will do; at their end, further writes fail. The result: the bytes written, the remaining events, and whether it succeeded. -/
def writeAll (buf : Bytes) : List WriteEvent → Bytes × List WriteEvent × Bool
  | [] => ([], [], buf.isEmpty)
  | e :: es =>
    if buf.isEmpty then ([], e :: es, true)
    else match e with
      | .fails => ([], es, false)
      | .takes 0 => ([], es, false)
      | .takes (n + 1) =>
        let (w, es, ok) := writeAll (buf.drop (n + 1)) es
        (buf.take (n + 1) ++ w, es, ok)

/-- Several calls of `write_all` one after the other, ignoring failures (`let _ =`). -/
def writeEach : List Bytes → List WriteEvent → Bytes
  | [], _ => []
  | buf :: bufs, es =>
    let (w, es, _) := writeAll buf es
    w ++ writeEach bufs es

/-- src/http.rs:131-136: the first buffer written for a proof. -/
def httpProofHead (proof : Bytes) (ttl : UInt32) : Bytes :=
  ascii "HTTP/1.1 200 OK\r\nContent-Length: " ++ (decimal proof.length ++
    (ascii "\r\nContent-Type: application/octet-stream\r\nCache-Control: public, max-age=" ++ (decimal ttl.toNat ++
    (ascii ", s-maxage=" ++ (decimal ttl.toNat ++ ascii "\r\nAccess-Control-Allow-Origin: *\r\n\r\n")))))

/-- src/http.rs:126-144: the buffers written for a decision. -/
def answerWrites (resolve : Name → UInt16 → Option (Bytes × UInt32)) : Decision → List Bytes
  | .reject status msg => [httpError status msg]
  | .lookup name ty =>
    match resolve name ty with
    | some (proof, ttl) => [httpProofHead proof ttl, proof]
    | none => [httpError (ascii "404 Not Found") (ascii "Failed to generate proof for given domain")]

/-- src/http.rs:50-145: what arrives at the client. `none` for a panic. -/
def deliver (dbg : Bool) (resolve : Name → UInt16 → Option (Bytes × UInt32)) (evs : List SockEvent) (writes : List WriteEvent) : Option Bytes :=
  match readRequest [] evs with
  | .closed => some []
  | .tooLarge => some (writeEach (answerWrites resolve (.reject (ascii "400 Bad Request") (ascii "Request Too Large"))) writes)
  | .request buf =>
    match decideBuf dbg buf with
    | none => none
    | some d => some (writeEach (answerWrites resolve d) writes)

end Dnssec
