import Verif.Model.Query

/-!
# Model of the TCP driver as a process that is suspended while it writes and reads (src/query.rs:293-363)

`Model/Query` has the driver as a function of what the peer sends. Here it is a state machine that goes on when the connection takes some of
the bytes it writes or delivers some bytes, as `write_all` and `read_exact` do (blocking in `build_proof`, suspended in `build_proof_async`).
Failures of the connection are not part of this model (they are in `Model/Query`).
-/

namespace Dnssec

/-- Where `build_proof` is: in `write_all` (src/query.rs:296-297, 303-304) with the bytes that are still to be written, in `read_exact`
(src/query.rs:311-313, 320-322) with the bytes of the message that have been read, or returned. Successive `write_all` calls are one list of bytes. -/
inductive TcpDriver where
  | sending (b : ProofBuilder) (left : Bytes)
  | reading (b : ProofBuilder) (got : Bytes)
  | returned (r : Res Unit (Bytes × UInt32))
deriving DecidableEq

/-- How many bytes the `read_exact` in progress still waits for, src/query.rs:310-313: first for the two bytes of the length, then for as many as these say. -/
def stillToRead (got : Bytes) : Nat :=
  match got with
  | a :: b :: body => (ofBe16 a b).toNat - body.length
  | _ => 2 - got.length

/-- src/query.rs:295-299 `send_query`: all it writes. -/
def sentFor (query : Bytes) : Bytes := be16 (UInt16.ofNat query.length) ++ query

namespace TcpDriver

/-- src/query.rs:337, 351-352: at the head of the loop. -/
def loopHead (b : ProofBuilder) : TcpDriver :=
  if b.awaiting then .reading b []
  else .returned (match b.finish with
    | some r => .ok r
    | none => .err ())

/-- About to write `out` (src/query.rs:342-345) and to go back to the head of the loop. -/
def send (b : ProofBuilder) (out : Bytes) : TcpDriver := if out.isEmpty then loopHead b else .sending b out

/-- src/query.rs:334-336: the first query. -/
def start (domain : Name) (ty : UInt16) : TcpDriver := send (ProofBuilder.new domain ty).1 (sentFor (ProofBuilder.new domain ty).2)

/-- The connection has taken the next `k` bytes. -/
def wrote (k : Nat) : TcpDriver → TcpDriver
  | .sending b left => send b (left.drop k)
  | d => d

/-- src/query.rs:340-345: a whole message has been read. -/
def message (dbg : Bool) (b : ProofBuilder) (m : Bytes) : TcpDriver :=
  match b.processResponse dbg m with
  | (_, .err ()) => .returned (.err ())
  | (_, .panic) => .returned .panic
  | (b, .ok qs) => send b (qs.map sentFor).flatten

/-- The connection has delivered `chunk` (src/query.rs:311-313). -/
def received (dbg : Bool) (chunk : Bytes) : TcpDriver → TcpDriver
  | .reading b got =>
    if stillToRead (got ++ chunk) = 0 then message dbg b ((got ++ chunk).drop 2)
    else .reading b (got ++ chunk)
  | d => d

end TcpDriver

end Dnssec
