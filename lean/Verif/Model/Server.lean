import Verif.Model.Http

/-! # Model of the HTTP server with many connections (src/http.rs:47-147), in small steps -/

namespace Dnssec

/-- The state of a task between two points where it awaits I/O. -/
inductive Phase
  /-- src/http.rs:56-71, awaiting `socket.read`; `buf` is `buf[..buf_pos]` -/
  | reading (buf : Bytes)
  /-- src/query.rs:361, awaiting `TokioTcpStream::connect` -/
  | connecting (name : Name) (ty : UInt16)
  /-- src/query.rs:337-340, awaiting the rest of a response; `s.incoming` is what has been received but not used -/
  | driving (name : Name) (ty : UInt16) (b : ProofBuilder) (s : Stream)
  /-- the task has returned: what it looked up and wrote -/
  | finished (asked : List (Name × UInt16)) (out : Bytes)
  | panicked
deriving DecidableEq

/-- A task with what its peers are going to do: the events on the client's socket; and whether the resolver accepts the connection and if
so, how many writes to it succeed and in which pieces its bytes arrive before it closes the connection. -/
structure Task where
  phase : Phase
  client : List SockEvent
  resolver : Option (Nat × List Bytes)
deriving DecidableEq

/-- src/http.rs:49-55: a task is spawned for a new connection. -/
def Task.new (client : List SockEvent) (resolver : Option (Nat × List Bytes)) : Task := ⟨.reading [], client, resolver⟩

/-- The outcome of `answer` as a phase. -/
def Served.toPhase : Served → Phase
  | .done asked out => .finished asked out
  | .panicked => .panicked

/-- src/http.rs:72-125: the request line is complete. -/
def requestRead (dbg : Bool) (buf : Bytes) : Phase :=
  match decideBuf dbg buf with
  | none => .panicked
  | some (.lookup name ty) => .connecting name ty
  | some d => (answer (fun _ _ => none) d).toPhase

/-- src/http.rs:57-70: a read on the client's socket returns. The check of line 57 is made at the end of the previous iteration. -/
def clientEvent (dbg : Bool) (buf : Bytes) : SockEvent → Phase
  | .error => .finished [] []
  | .wouldBlock => .reading buf
  | .data chunk =>
    let new := buf ++ chunk.take (httpBufSize - buf.length)
    if (chunk.take (httpBufSize - buf.length)).length = 0 then .finished [] []
    else if hasCRLF new then requestRead dbg new
    else if new.length = httpBufSize then
      (answer (fun _ _ => none) (.reject (ascii "400 Bad Request") (ascii "Request Too Large"))).toPhase
    else .reading new

/-- src/http.rs:126-144: the lookup has returned. -/
def lookupDone (name : Name) (ty : UInt16) : Res Unit (Bytes × UInt32) → Phase
  | .panic => .panicked
  | .ok r => (answer (fun _ _ => some r) (.lookup name ty)).toPhase
  | .err () => (answer (fun _ _ => none) (.lookup name ty)).toPhase

/-- src/query.rs:337-349 as far as possible with the bytes received: the loop ends, or it waits for more bytes (`none`). `fuel` bounds the
number of messages used; ten are enough (C42). -/
def pump (dbg : Bool) : Nat → ProofBuilder → Stream → (ProofBuilder × Stream) × Option (Res Unit (Bytes × UInt32))
  | fuel, b, s =>
    if b.awaiting then
      match fuel with
      | 0 => ((b, s), none)
      | fuel + 1 =>
        match readResponse s with
        | none => ((b, s), none)
        | some (resp, s) =>
          match b.processResponse dbg resp with
          | (b, .err ()) => ((b, s), some (.err ()))
          | (b, .panic) => ((b, s), some .panic)
          | (b, .ok qs) =>
            match sendAll s qs with
            | none => ((b, s), some (.err ()))
            | some s => pump dbg fuel b s
    else match b.finish with
      | some r => ((b, s), some (.ok r))
      | none => ((b, s), some (.err ()))

/-- Where the task is after `pump`. -/
def pumped (dbg : Bool) (name : Name) (ty : UInt16) (b : ProofBuilder) (s : Stream) : Phase :=
  match pump dbg 10 b s with
  | ((b, s), none) => .driving name ty b s
  | (_, some r) => lookupDone name ty r

/-- The I/O awaited by the task completes, and the task runs until it awaits again. The ends of the lists are the ends of the streams. -/
def Task.step (dbg : Bool) (t : Task) : Task :=
  match t.phase with
  | .reading buf =>
    match t.client with
    | [] => { t with phase := .finished [] [] }
    | e :: es => { t with phase := clientEvent dbg buf e, client := es }
  | .connecting name ty =>
    match t.resolver with
    | none => { t with phase := lookupDone name ty (.err ()) }
    | some (writes, _) =>
      match sendQuery ⟨[], writes, []⟩ (ProofBuilder.new name ty).2 with
      | none => { t with phase := lookupDone name ty (.err ()) }
      | some s => { t with phase := pumped dbg name ty (ProofBuilder.new name ty).1 s }
  | .driving name ty b s =>
    match t.resolver with
    | some (writes, chunk :: chunks) =>
      { t with phase := pumped dbg name ty b { s with incoming := s.incoming ++ chunk }, resolver := some (writes, chunks) }
    | _ => { t with phase := lookupDone name ty (.err ()) }
  | .finished _ _ => t
  | .panicked => t

/-- The process: all tasks spawned so far, and whether `run_server` is still running. A panic in a task does not leave the task
(`tokio::spawn`); when `run_server` panics, `main` does, and all tasks are dropped. -/
structure ServerState where
  alive : Bool
  tasks : List Task
deriving DecidableEq

/-- What can happen next: a connection is accepted (with what its peers are going to do), `accept` fails, or a task continues. -/
inductive ServerEvent
  | accept (client : List SockEvent) (resolver : Option (Nat × List Bytes))
  | acceptFails
  | run (task : Nat)
deriving DecidableEq

/-- src/http.rs:47-50: the accept loop, and the executor. -/
def ServerState.step (dbg : Bool) (s : ServerState) : ServerEvent → ServerState
  | .accept client resolver => if s.alive then { s with tasks := s.tasks ++ [Task.new client resolver] } else s
  | .acceptFails => { s with alive := false }
  | .run i => if s.alive then { s with tasks := s.tasks.modify i (Task.step dbg) } else s

/-- A run of the server from its start. -/
def runServer (dbg : Bool) (evs : List ServerEvent) : ServerState := evs.foldl (ServerState.step dbg) ⟨true, []⟩

end Dnssec
