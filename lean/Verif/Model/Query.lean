import Verif.Model.Ser
import Verif.Model.Sort

/-! # Model of src/query.rs: `QueryBuf`, `build_query`, `handle_response`, `ProofBuilder`, the TCP driver -/

namespace Dnssec

/-! ### QueryBuf -/

/-- src/query.rs:31-35 `QueryBuf`, with `L = STACK_BUF_LIMIT` (32 in tests, 2048 in production: src/query.rs:24-27). -/
structure QueryBuf (L : UInt16) where
  buf : FixedBytes L.toNat
  heap : Bytes
  len : UInt16
deriving DecidableEq

/-- `STACK_BUF_LIMIT` in production (src/query.rs:27). -/
abbrev stackBufLimit : UInt16 := 2048

/-- `u16::saturating_add`. -/
def satAdd16 (a b : UInt16) : UInt16 := if a.toNat + b.toNat > 65535 then 65535 else a + b

/-- `Vec::resize(n, 0)`. -/
def resize0 (v : Bytes) (n : Nat) : Bytes := v.take n ++ List.replicate (n - v.length) 0

namespace QueryBuf

variable {L : UInt16}

/-- src/query.rs:38-45 `QueryBuf::new_zeroed`. -/
def newZeroed (L len : UInt16) : QueryBuf L where
  buf := ⟨List.replicate L.toNat 0, List.length_replicate⟩
  heap := if len > L then List.replicate len.toNat 0 else []
  len := len

/-- src/query.rs:52-65: the body of `QueryBuf::extend_from_slice` after `new_len` is computed; `none` is a panic (a slice range
or a `copy_from_slice` length mismatch). -/
def extendTo (q : QueryBuf L) (sl : Bytes) (newLen : UInt16) : Option (QueryBuf L) :=
  let wasHeap := decide (q.len > L)
  let isHeap := decide (newLen > L)
  let heap? : Option Bytes :=
    if wasHeap ≠ isHeap then
      -- `self.heap_buf[..self.len].copy_from_slice(&self.buf[..self.len])`
      if q.len ≤ newLen ∧ q.len ≤ L then
        some (q.buf.1.take q.len.toNat ++ List.replicate (newLen.toNat - q.len.toNat) 0)
      else none
    else some q.heap
  match heap? with
  | none => none
  | some heap =>
    if isHeap then
      let heap := resize0 heap newLen.toNat
      if q.len.toNat ≤ heap.length ∧ heap.length - q.len.toNat = sl.length then
        some { buf := q.buf, heap := heap.take q.len.toNat ++ sl, len := newLen }
      else none
    else
      if h : q.len.toNat ≤ newLen.toNat ∧ newLen.toNat ≤ L.toNat ∧ newLen.toNat - q.len.toNat = sl.length then
        some
          { buf := ⟨q.buf.1.take q.len.toNat ++ sl ++ q.buf.1.drop newLen.toNat, by
              have := q.buf.2
              simp only [List.length_append, List.length_take, List.length_drop]; omega⟩
            heap := heap
            len := newLen }
      else none

/-- src/query.rs:50-66 `QueryBuf::extend_from_slice`; `sl.len() as u16` wraps, the addition saturates. -/
def extendFromSlice (q : QueryBuf L) (sl : Bytes) : Option (QueryBuf L) :=
  q.extendTo sl (satAdd16 q.len (UInt16.ofNat sl.length))

/-- src/query.rs:76-85 `Deref` (and `DerefMut`, 86-94: the same slice). -/
def deref (q : QueryBuf L) : Bytes := if q.len > L then q.heap else q.buf.1.take q.len.toNat

/-- src/query.rs:68-74 `QueryBuf::into_vec`. -/
def intoVec (q : QueryBuf L) : Bytes := if q.len > L then q.heap else q.buf.1.take q.len.toNat

/-- Writing through `DerefMut` (src/query.rs:86-94) with `copy_from_slice(new)` (`none`: length mismatch panics); this is
how `read_response` (line 313) and the WASM wrapper fill a buffer. -/
def overwrite (q : QueryBuf L) (new : Bytes) : Option (QueryBuf L) :=
  if h : new.length = q.deref.length then
    if hl : q.len > L then some { q with heap := new }
    else
      some { q with
        buf := ⟨new ++ q.buf.1.drop q.len.toNat, by
          have h2 := q.buf.2
          have h3 : q.len.toNat ≤ L.toNat := by
            have := UInt16.not_lt.mp hl; exact UInt16.le_iff_toNat_le.mp this
          simp only [deref, hl, if_false, List.length_take] at h
          simp only [List.length_append, List.length_drop]; omega⟩ }
  else none

/-- A sequence of `extend_from_slice` calls. -/
def extendAll : QueryBuf L → List Bytes → Option (QueryBuf L)
  | q, [] => some q
  | q, s :: ss => match q.extendFromSlice s with
    | none => none
    | some q => q.extendAll ss

end QueryBuf

/-! ### Queries -/

/-- src/query.rs:98 -/
abbrev txid : UInt16 := 0

/-- The sequence of slices `write_name` passes to the writer (src/ser.rs:113-123). -/
def writeNameSlices (name : Bytes) : List Bytes :=
  let canonical := lower name
  if canonical = [dot] then [[0]]
  else ((splitDot canonical).map (fun label => [[UInt8.ofNat label.length], label])).flatten

/-- The sequence of slices written by `build_query` (src/query.rs:102-112). -/
def querySlices (domain : Name) (ty : UInt16) : List Bytes :=
  [be16 txid, [0x01, 0x20], [0, 1, 0, 0, 0, 0, 0, 1]] ++ writeNameSlices domain.bytes ++
  [be16 ty, be16 1, [0, 0, 0x29], be16 0, [0, 0], be16 0x8000, be16 0]

/-- src/query.rs:100-114 `build_query`; `none` is a panic in `extend_from_slice`. -/
def buildQuery (L : UInt16) (domain : Name) (ty : UInt16) : Option (QueryBuf L) :=
  (QueryBuf.newZeroed L 0).extendAll (querySlices domain ty)

/-- The bytes of a query. `ProofBuilder` below returns queries in this form; `C39` proves that `buildQuery` never panics
for a valid name and that its buffer holds exactly these bytes. -/
def queryBytes (domain : Name) (ty : UInt16) : Bytes := (querySlices domain ty).flatten

/-! ### Responses -/

/-- The mutable state of `handle_response` (src/query.rs:123): unread input, `proof`, `rrsig_key_names`, `min_ttl`. -/
structure HState where
  read : Bytes
  proof : Bytes
  names : List Name
  minTtl : UInt32
deriving DecidableEq

/-- `write_rr(&rr, ttl, proof); min_ttl = min(..); if RRSig push key_name` (src/query.rs:154-156 and 172-174). -/
def HState.add (st : HState) (rr : RR) (ttl : UInt32) : HState where
  read := st.read
  proof := st.proof ++ writeRR rr ttl
  names := match rr with
    | .rrsig s => st.names ++ [s.keyName]
    | _ => st.names
  minTtl := min st.minTtl ttl

/-- The answer loop, src/query.rs:152-157. The returned state is what the `&mut` arguments hold afterwards, also when the
function returns `Err`. -/
def answersLoop (dbg : Bool) (resp : Bytes) : Nat → HState → HState × Res Unit Unit
  | 0, st => (st, .ok ())
  | n + 1, st =>
    match parseWirePacketRR dbg resp st.read with
    | .ok ((rr, ttl), read) => answersLoop dbg resp n ({ st with read := read }.add rr ttl)
    | .err () => (st, .err ())
    | .panic => (st, .panic)

/-- The filter of src/query.rs:163-171: which authority records are kept. -/
def keepAuthority : RR → Bool
  | .rrsig s => s.ty == nsecType || s.ty == nsec3Type
  | .nsec _ => true
  | .nsec3 _ => true
  | _ => false

/-- The authority loop, src/query.rs:159-175. -/
def authoritiesLoop (dbg : Bool) (resp : Bytes) : Nat → HState → HState × Res Unit Unit
  | 0, st => (st, .ok ())
  | n + 1, st =>
    match parseWirePacketRR dbg resp st.read with
    | .ok ((rr, ttl), read) =>
      if keepAuthority rr then authoritiesLoop dbg resp n ({ st with read := read }.add rr ttl)
      else authoritiesLoop dbg resp n { st with read := read }
    | .err () => (st, .err ())
    | .panic => (st, .panic)

/-- The header checks and the question section, src/query.rs:124-148: the answer and authority counts and the rest of the
message. (`questions` is 1, so the question loop runs once.) -/
def readHeader (resp : Bytes) : Res Unit ((UInt16 × UInt16) × Bytes) := do
  let (id, read) ← readU16 resp
  if id ≠ txid then .err () else
  let (flags, read) ← readU16 read
  if flags &&& 0b1000000000000000 = 0 then .err () else
  if flags &&& 0b0111101000000111 ≠ 0 then .err () else
  if flags &&& 0b100000 = 0 then .err () else
  let (questions, read) ← readU16 read
  if questions ≠ 1 then .err () else
  let (answers, read) ← readU16 read
  if answers = 0 then .err () else
  let (authorities, read) ← readU16 read
  let (_additional, read) ← readU16 read
  let (_, read) ← readName resp read
  let (_, read) ← readU16 read
  let (_, read) ← readU16 read
  pure ((answers, authorities), read)

/-- src/query.rs:123-178 `handle_response`: the contents of `proof` and `rrsig_key_names` afterwards and the result. -/
def handleResponse (dbg : Bool) (resp proof : Bytes) (names : List Name) :
    (Bytes × List Name) × Res Unit UInt32 :=
  match readHeader resp with
  | .err () => ((proof, names), .err ())
  | .panic => ((proof, names), .panic)
  | .ok ((answers, authorities), read) =>
    match answersLoop dbg resp answers.toNat ⟨read, proof, names, 0xffffffff⟩ with
    | (st, .err ()) => ((st.proof, st.names), .err ())
    | (st, .panic) => ((st.proof, st.names), .panic)
    | (st, .ok ()) =>
      match authoritiesLoop dbg resp authorities.toNat st with
      | (st, .err ()) => ((st.proof, st.names), .err ())
      | (st, .panic) => ((st.proof, st.names), .panic)
      | (st, .ok ()) => ((st.proof, st.names), .ok st.minTtl)

/-! ### ProofBuilder -/

/-- src/query.rs:195 -/
abbrev maxRequests : Nat := 10

/-- src/query.rs:210-216 `ProofBuilder` -/
structure ProofBuilder where
  proof : Bytes
  minTtl : UInt32
  requested : List Name
  pending : Nat
  made : Nat
deriving DecidableEq

namespace ProofBuilder

/-- src/query.rs:227-236 `ProofBuilder::new` -/
def new (name : Name) (ty : UInt16) : ProofBuilder × Bytes :=
  ({ proof := [], minTtl := 0xffffffff, requested := [], pending := 1, made := 1 }, queryBytes name ty)

/-- src/query.rs:243-245 `ProofBuilder::awaiting_responses` -/
def awaiting (b : ProofBuilder) : Bool := decide (b.pending > 0) && decide (b.made ≤ maxRequests)

/-- The `for key_name in ..` loop, src/query.rs:261-274. -/
def requestLoop : List Name → ProofBuilder → List Bytes → ProofBuilder × List Bytes
  | [], b, qs => (b, qs)
  | k :: ks, b, qs =>
    if k ∈ b.requested then requestLoop ks b qs
    else
      let b1 := { b with pending := b.pending + 1, made := b.made + 1, requested := b.requested ++ [k] }
      let qs1 := qs ++ [queryBytes k dnskeyType]
      if k.bytes ≠ [dot] then
        requestLoop ks { b1 with pending := b1.pending + 1, made := b1.made + 1 } (qs1 ++ [queryBytes k dsType])
      else requestLoop ks b1 qs1

/-- src/query.rs:249-280 `ProofBuilder::process_response`: the builder afterwards and the result. -/
def processResponse (dbg : Bool) (b : ProofBuilder) (resp : Bytes) : ProofBuilder × Res Unit (List Bytes) :=
  if b.pending = 0 then (b, .err ())
  else
    match handleResponse dbg resp b.proof [] with
    | ((proof, _), .err ()) => ({ b with proof := proof }, .err ())
    | ((proof, _), .panic) => ({ b with proof := proof }, .panic)
    | ((proof, names), .ok ttl) =>
      let b1 := { b with proof := proof, minTtl := min b.minTtl ttl, pending := b.pending - 1 }
      let (b2, qs) := requestLoop (dedup (sortBy Name.cmp names)) b1 []
      if b2.made ≤ maxRequests then (b2, .ok qs) else (b2, .ok [])

/-- src/query.rs:285-291 `ProofBuilder::finish_proof` -/
def finish (b : ProofBuilder) : Option (Bytes × UInt32) :=
  if b.pending > 0 ∨ b.made > maxRequests then none else some (b.proof, b.minTtl)

end ProofBuilder

/-! ### TCP driver -/

/-- A TCP stream: the bytes the peer is going to send before it closes (or the connection fails), how many `write_all`
calls still succeed, and everything written so far. -/
structure Stream where
  incoming : Bytes
  writesLeft : Nat
  sent : Bytes
deriving DecidableEq

/-- `stream.write_all(b)`; `none` = `Err`. -/
def Stream.writeAll (s : Stream) (b : Bytes) : Option Stream :=
  match s.writesLeft with
  | 0 => none
  | n + 1 => some { s with writesLeft := n, sent := s.sent ++ b }

/-- `stream.read_exact(buf)` for an `n` byte buffer; `none` = `Err`. -/
def Stream.readExact (s : Stream) (n : Nat) : Option (Bytes × Stream) :=
  if s.incoming.length < n then none
  else some (s.incoming.take n, { s with incoming := s.incoming.drop n })

/-- src/query.rs:295-299 `send_query` (and 302-306, the async copy). -/
def sendQuery (s : Stream) (q : Bytes) : Option Stream :=
  match s.writeAll (be16 (UInt16.ofNat q.length)) with
  | none => none
  | some s => s.writeAll q

/-- src/query.rs:309-315 `read_response` (and 318-324): the message as the contents of the `QueryBuf`. -/
def readResponse (s : Stream) : Option (Bytes × Stream) :=
  match s.readExact 2 with
  | some ([a, b], s) => s.readExact (ofBe16 a b).toNat
  | _ => none

/-- The `for query in new_queries` loop, src/query.rs:342-345. -/
def sendAll : Stream → List Bytes → Option Stream
  | s, [] => some s
  | s, q :: qs => match sendQuery s q with
    | none => none
    | some s => sendAll s qs

/-- The `while builder.awaiting_responses()` loop, src/query.rs:337-349. `none` means the loop has not ended within `fuel`
iterations; the result is the final builder, the stream, and `some (proof, ttl)` or `none` for `Err(Error)`.
A panic is `Res.panic`. -/
def driveLoop (dbg : Bool) : Nat → ProofBuilder → Stream → Option (Stream × Res Unit (Bytes × UInt32))
  | fuel, b, s =>
    if b.awaiting then
      match fuel with
      | 0 => none
      | fuel + 1 =>
        match readResponse s with
        | none => some (s, .err ())
        | some (resp, s) =>
          match b.processResponse dbg resp with
          | (_, .err ()) => some (s, .err ())
          | (_, .panic) => some (s, .panic)
          | (b, .ok qs) =>
            match sendAll s qs with
            | none => some (s, .err ())
            | some s => driveLoop dbg fuel b s
    else match b.finish with
      | some r => some (s, .ok r)
      | none => some (s, .err ())

/-- src/query.rs:327-363 `build_proof` once the connection is up. -/
def buildProof (dbg : Bool) (fuel : Nat) (s : Stream) (domain : Name) (ty : UInt16) :
    Option (Stream × Res Unit (Bytes × UInt32)) :=
  let (b, q) := ProofBuilder.new domain ty
  match sendQuery s q with
  | none => some (s, .err ())
  | some s => driveLoop dbg fuel b s

end Dnssec
