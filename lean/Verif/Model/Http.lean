import Verif.Model.Query
import Verif.Model.Json

/-! # Model of the HTTP server (src/http.rs) -/

namespace Dnssec

/-- Size of the request buffer, src/http.rs:54. -/
def httpBufSize : Nat := 4096

/-- What happens on the client's socket, in order: bytes become available, a read returns `WouldBlock`, or a read fails. The end of a
list of events is the end of the stream. -/
inductive SockEvent
  | data (chunk : Bytes)
  | wouldBlock
  | error
deriving DecidableEq

/-- `buf.windows(2)` contains `b"\r\n"`, src/http.rs:63-65. -/
def hasCRLF : Bytes → Bool
  | a :: b :: rest => (a == 13 && b == 10) || hasCRLF (b :: rest)
  | _ => false

/-- The result of the `'read_req` loop: returned without answering, the buffer is full, or a request with the buffer. -/
inductive ReadResult
  | closed
  | tooLarge
  | request (buf : Bytes)
deriving DecidableEq

/-- The `'read_req` loop, src/http.rs:56-71, with `buf` standing for `buf[..buf_pos]`. A read returns as much of the available bytes as
fits in the buffer. What does not fit is not read later: by then the loop has ended. -/
def readRequest (buf : Bytes) (evs : List SockEvent) : ReadResult :=
  if buf.length = httpBufSize then .tooLarge
  else match evs with
    | [] => .closed
    | .error :: _ => .closed
    | .wouldBlock :: evs => readRequest buf evs
    | .data chunk :: evs =>
      if (chunk.take (httpBufSize - buf.length)).length = 0 then .closed
      else if hasCRLF (buf ++ chunk.take (httpBufSize - buf.length)) then .request (buf ++ chunk.take (httpBufSize - buf.length))
      else readRequest (buf ++ chunk.take (httpBufSize - buf.length)) evs

/-- `str::split_once("\r\n")`, on the bytes. -/
def splitOnceCRLF : Bytes → Option (Bytes × Bytes)
  | [] => none
  | [_] => none
  | a :: b :: rest =>
    if a = 13 ∧ b = 10 then some ([], rest)
    else match splitOnceCRLF (b :: rest) with
      | some (x, y) => some (a :: x, y)
      | none => none

/-- `str::split` at an ASCII character, on the bytes. -/
def splitOn (sep : UInt8) : Bytes → List Bytes
  | [] => [[]]
  | c :: cs =>
    if c = sep then [] :: splitOn sep cs
    else match splitOn sep cs with
      | [] => [[c]]
      | p :: ps => (c :: p) :: ps

/-- `str::split_once` at an ASCII character, on the bytes. -/
def splitOnce (sep : UInt8) : Bytes → Option (Bytes × Bytes)
  | [] => none
  | c :: cs =>
    if c = sep then some ([], cs)
    else match splitOnce sep cs with
      | some (x, y) => some (c :: x, y)
      | none => none

/-- `str::to_ascii_uppercase`. -/
def upper (s : Bytes) : Bytes := s.map upperByte

/-- What the server does with a request: answer with an error (status and body), or ask the resolver for a proof. -/
inductive Decision
  | reject (status msg : Bytes)
  | lookup (name : Name) (ty : UInt16)
deriving DecidableEq

/-- The initial value of `response`, src/http.rs:51. -/
def badRequest : Decision := .reject (ascii "400 Bad Request") (ascii "Bad Request")

/-- src/http.rs:94 `PATH_PFX` -/
def pathPrefix : Bytes := ascii "/dnssecproof?"

/-- The `for arg in ..` loop, src/http.rs:101-109; `none` for `break 'ret_err`. -/
def argsLoop : List Bytes → Bytes × Bytes → Option (Bytes × Bytes)
  | [], dt => some dt
  | arg :: args, (d, t) =>
    match splitOnce 61 arg with
    | some (k, v) =>
      if k = ascii "d" then argsLoop args (v, t)
      else if k = ascii "t" then argsLoop args (d, v)
      else argsLoop args (d, t)
    | none => none

/-- The match on the type, src/http.rs:119-125. -/
def httpType (t : Bytes) : Option UInt16 :=
  if upper t = ascii "TXT" then some txtType
  else if upper t = ascii "TLSA" then some tlsaType
  else if upper t = ascii "A" then some aType
  else if upper t = ascii "AAAA" then some aaaaType
  else none

/-- src/http.rs:94-125, for the path of a GET request. -/
def decidePath (path : Bytes) : Decision :=
  if ¬ pathPrefix <+: path then .reject (ascii "404 Not Found") (ascii "Not Found")
  else match argsLoop (splitOn 38 (path.drop pathPrefix.length)) ([], []) with
    | none => badRequest
    | some (d, t) =>
      if d = [] ∨ t = [] then .reject (ascii "400 Bad Request") (ascii "Missing d or t URI parameters")
      else match Name.tryFrom d with
        | none => .reject (ascii "400 Bad Request") (ascii "Failed to parse domain, make sure it ends with .")
        | some name => match httpType t with
          | some ty => .lookup name ty
          | none => badRequest

/-- src/http.rs:84-125, for the request line. -/
def decideLine (request : Bytes) : Decision :=
  match splitOn 32 request with
  | [verb, path, vers] =>
    if verb ≠ ascii "GET" then badRequest
    else if vers ≠ ascii "HTTP/1.1" ∧ vers ≠ ascii "HTTP/1.0" then badRequest
    else decidePath path
  | _ => badRequest

/-- src/http.rs:72-125, for the contents of the buffer; `none` is the failing `debug_assert`. -/
def decideBuf (dbg : Bool) (buf : Bytes) : Option Decision :=
  if utf8Valid buf then
    match splitOnceCRLF buf with
    | some (request, _) => some (decideLine request)
    | none => if dbg then none else some badRequest
  else some badRequest

/-- The error response, src/http.rs:141-144. -/
def httpError (status msg : Bytes) : Bytes :=
  ascii "HTTP/1.1 " ++ (status ++ (ascii "\r\nContent-Length: " ++ (decimal msg.length ++
    (ascii "\r\nContent-Type: text/plain\r\nAccess-Control-Allow-Origin: *\r\n\r\n" ++ msg))))

/-- The response with a proof, src/http.rs:131-138. -/
def httpProof (proof : Bytes) (ttl : UInt32) : Bytes :=
  ascii "HTTP/1.1 200 OK\r\nContent-Length: " ++ (decimal proof.length ++
    (ascii "\r\nContent-Type: application/octet-stream\r\nCache-Control: public, max-age=" ++ (decimal ttl.toNat ++
    (ascii ", s-maxage=" ++ (decimal ttl.toNat ++ (ascii "\r\nAccess-Control-Allow-Origin: *\r\n\r\n" ++ proof))))))

/-- What handling a connection comes to: the names and types looked up, and the bytes written to the client. `panicked` for the
`debug_assert`. -/
inductive Served
  | panicked
  | done (asked : List (Name × UInt16)) (out : Bytes)
deriving DecidableEq

/-- src/http.rs:126-129 and 131-144. `resolve` stands for `build_{txt,tlsa,a,aaaa}_proof_async` (`buildProof` on a fresh connection).
Failing writes are ignored by the code; `out` is what is written if none fails (see Model/Write for the others). -/
def answer (resolve : Name → UInt16 → Option (Bytes × UInt32)) : Decision → Served
  | .reject status msg => .done [] (httpError status msg)
  | .lookup name ty =>
    match resolve name ty with
    | some (proof, ttl) => .done [(name, ty)] (httpProof proof ttl)
    | none => .done [(name, ty)] (httpError (ascii "404 Not Found") (ascii "Failed to generate proof for given domain"))

/-- src/query.rs:360-363 `build_proof_async` (also 354-357 `build_proof`), behind `build_{a,aaaa,txt,tlsa}_proof(_async)`
(src/query.rs:371-439): `none` for a failing `connect`, otherwise the connection. The loop of the driver ends within ten iterations
(`C42_driver_returns`), so the last case does not occur. -/
def lookupTcp (dbg : Bool) (conn : Option Stream) (name : Name) (ty : UInt16) : Res Unit (Bytes × UInt32) :=
  match conn with
  | none => .err ()
  | some s => match buildProof dbg 10 s name ty with
    | some (_, r) => r
    | none => .err ()

/-- src/http.rs:50-145: the task for one connection. -/
def serve (dbg : Bool) (resolve : Name → UInt16 → Option (Bytes × UInt32)) (evs : List SockEvent) : Served :=
  match readRequest [] evs with
  | .closed => .done [] []
  | .tooLarge => answer resolve (.reject (ascii "400 Bad Request") (ascii "Request Too Large"))
  | .request buf =>
    match decideBuf dbg buf with
    | none => .panicked
    | some d => answer resolve d

/-- src/http.rs:50-145 with the connection to the resolver as it is opened for a lookup (src/http.rs:119-129). A panic while building
the proof ends the task, so nothing is written and the connection is closed. -/
def serveTcp (dbg : Bool) (conn : Option Stream) (evs : List SockEvent) : Served :=
  match readRequest [] evs with
  | .closed => .done [] []
  | .tooLarge => answer (fun _ _ => none) (.reject (ascii "400 Bad Request") (ascii "Request Too Large"))
  | .request buf =>
    match decideBuf dbg buf with
    | none => .panicked
    | some (.lookup name ty) =>
      match lookupTcp dbg conn name ty with
      | .panic => .panicked
      | .ok r => answer (fun _ _ => some r) (.lookup name ty)
      | .err () => answer (fun _ _ => none) (.lookup name ty)
    | some d => answer (fun _ _ => none) d

end Dnssec
