import Verif.Model.Debug
import Verif.Model.Query

/-! # Model of debug builds: building proofs

The functions of src/query.rs that write records or parse them, in debug builds: the parser with its debug assertions (`dbg = true`) and
`write_rr` with its overflow checks (`writeRRD`). The file has no other sum or assertion that could fail: the counters of `ProofBuilder`
are `usize` and grow by at most two per record read. -/

namespace Dnssec

/-- `write_rr(&rr, ttl, proof); min_ttl = min(..); if RRSig push key_name` (src/query.rs:154-156 and 172-174); `none` is a panic. -/
def HState.addD (st : HState) (rr : RR) (ttl : UInt32) : Option HState :=
  (writeRRD rr ttl).map fun w => { st.add rr ttl with proof := st.proof ++ w }

/-- The answer loop, src/query.rs:152-157. -/
def answersLoopD (resp : Bytes) : Nat → HState → HState × Res Unit Unit
  | 0, st => (st, .ok ())
  | n + 1, st =>
    match parseWirePacketRR true resp st.read with
    | .ok ((rr, ttl), read) =>
      match { st with read := read }.addD rr ttl with
      | none => (st, .panic)
      | some st => answersLoopD resp n st
    | .err () => (st, .err ())
    | .panic => (st, .panic)

/-- The authority loop, src/query.rs:159-175. -/
def authoritiesLoopD (resp : Bytes) : Nat → HState → HState × Res Unit Unit
  | 0, st => (st, .ok ())
  | n + 1, st =>
    match parseWirePacketRR true resp st.read with
    | .ok ((rr, ttl), read) =>
      if keepAuthority rr then
        match { st with read := read }.addD rr ttl with
        | none => (st, .panic)
        | some st => authoritiesLoopD resp n st
      else authoritiesLoopD resp n { st with read := read }
    | .err () => (st, .err ())
    | .panic => (st, .panic)

/-- src/query.rs:123-178 `handle_response`. -/
def handleResponseD (resp proof : Bytes) (names : List Name) : (Bytes × List Name) × Res Unit UInt32 :=
  match readHeader resp with
  | .err () => ((proof, names), .err ())
  | .panic => ((proof, names), .panic)
  | .ok ((answers, authorities), read) =>
    match answersLoopD resp answers.toNat ⟨read, proof, names, 0xffffffff⟩ with
    | (st, .err ()) => ((st.proof, st.names), .err ())
    | (st, .panic) => ((st.proof, st.names), .panic)
    | (st, .ok ()) =>
      match authoritiesLoopD resp authorities.toNat st with
      | (st, .err ()) => ((st.proof, st.names), .err ())
      | (st, .panic) => ((st.proof, st.names), .panic)
      | (st, .ok ()) => ((st.proof, st.names), .ok st.minTtl)

/-- src/query.rs:249-280 `ProofBuilder::process_response`: the builder afterwards and the result. -/
def ProofBuilder.processResponseD (b : ProofBuilder) (resp : Bytes) : ProofBuilder × Res Unit (List Bytes) :=
  if b.pending = 0 then (b, .err ())
  else
    match handleResponseD resp b.proof [] with
    | ((proof, _), .err ()) => ({ b with proof := proof }, .err ())
    | ((proof, _), .panic) => ({ b with proof := proof }, .panic)
    | ((proof, names), .ok ttl) =>
      let b1 := { b with proof := proof, minTtl := min b.minTtl ttl, pending := b.pending - 1 }
      let (b2, qs) := requestLoop (dedup (sortBy Name.cmp names)) b1 []
      if b2.made ≤ maxRequests then (b2, .ok qs) else (b2, .ok [])

/-- The `while builder.awaiting_responses()` loop, src/query.rs:337-349; see `driveLoop`. -/
def driveLoopD : Nat → ProofBuilder → Stream → Option (Stream × Res Unit (Bytes × UInt32))
  | fuel, b, s =>
    if b.awaiting then
      match fuel with
      | 0 => none
      | fuel + 1 =>
        match readResponse s with
        | none => some (s, .err ())
        | some (resp, s) =>
          match b.processResponseD resp with
          | (_, .err ()) => some (s, .err ())
          | (_, .panic) => some (s, .panic)
          | (b, .ok qs) =>
            match sendAll s qs with
            | none => some (s, .err ())
            | some s => driveLoopD fuel b s
    else match b.finish with
      | some r => some (s, .ok r)
      | none => some (s, .err ())

/-- src/query.rs:327-363 `build_proof` once the connection is up. -/
def buildProofD (fuel : Nat) (s : Stream) (domain : Name) (ty : UInt16) : Option (Stream × Res Unit (Bytes × UInt32)) :=
  let (b, q) := ProofBuilder.new domain ty
  match sendQuery s q with
  | none => some (s, .err ())
  | some s => driveLoopD fuel b s

end Dnssec
