import Verif.Proofs.Builder
import Verif.Props.Wire

/-! # C37–C48: queries, responses and proof building -/

namespace Dnssec.Props

open Dnssec Spec

variable {dbg : Bool} {name : Name} {ty : UInt16}

/-! ## C37, C38: `QueryBuf` -/

/-- **C37.** For every stack limit `L`, initial size and sequence of operations, a `QueryBuf` has the contents a plain byte vector
would have (read through `Deref` or `into_vec`), and panics only where the vector would exceed 65535 bytes or the contents would be
overwritten with contents of another length. -/
theorem C37_buffer_is_a_vector (L n : UInt16) (ops : List BufOp) :
    (bufRun (QueryBuf.newZeroed L n) ops).map QueryBuf.deref = vecRun (List.replicate n.toNat 0) ops ∧
    (bufRun (QueryBuf.newZeroed L n) ops).map QueryBuf.intoVec = vecRun (List.replicate n.toNat 0) ops := by
  have := QueryBuf.bufRun_eq ops (QueryBuf.newZeroed_wf L n)
  rw [QueryBuf.newZeroed_deref] at this
  exact ⟨this.1, this.2.1⟩

/-- A case that crosses the limit: 2 zero bytes on the stack, three more overflow to the heap, all overwritten. -/
example : vecRun (List.replicate (2 : UInt16).toNat 0) [.extend [1, 2, 3], .write [9, 8, 7, 6, 5], .extend [4]] = some [9, 8, 7, 6, 5, 4] ∧
    (bufRun (QueryBuf.newZeroed 4 2) [.extend [1, 2, 3], .write [9, 8, 7, 6, 5], .extend [4]]).map QueryBuf.deref =
      some [9, 8, 7, 6, 5, 4] := by decide

/-- **C37.** The length is the length of the contents. -/
theorem C37_length (L n : UInt16) (ops : List BufOp) (q : QueryBuf L) (h : bufRun (QueryBuf.newZeroed L n) ops = some q) :
    q.deref.length = q.len.toNat :=
  QueryBuf.deref_length ((QueryBuf.bufRun_eq ops (QueryBuf.newZeroed_wf L n)).2.2 q h)

example : (bufRun (QueryBuf.newZeroed 4 2) [.extend [1, 2, 3]]).map (fun q => (q.len, q.deref)) = some (5, [0, 0, 1, 2, 3]) := by decide

/-- **C38 is false:** appending one byte to a buffer of 65535 bytes panics, although the documentation says that it will not. -/
theorem C38_fails_beyond_u16 (L : UInt16) (b : UInt8) : (QueryBuf.newZeroed L 65535).extendFromSlice [b] = none :=
  QueryBuf.extend_panic (show 65535 < (65535 : UInt16).toNat + [b].length by simp)

/-- **C38, exactly:** `extend_from_slice` panics iff the total would exceed 65535 bytes.
Missing from the full property: the overflowing pushes, for which it is false. -/
theorem C38_panics_iff_partial (L n : UInt16) (ops : List BufOp) (q : QueryBuf L) (h : bufRun (QueryBuf.newZeroed L n) ops = some q)
    (sl : Bytes) : q.extendFromSlice sl = none ↔ 65535 < q.deref.length + sl.length := by
  have wf := (QueryBuf.bufRun_eq ops (QueryBuf.newZeroed_wf L n)).2.2 q h
  rw [QueryBuf.deref_length wf]
  constructor
  · intro hn
    refine Nat.lt_of_not_le fun hle => ?_
    obtain ⟨q', e, _⟩ := QueryBuf.extend_ok wf hle
    rw [e] at hn
    simp at hn
  · exact QueryBuf.extend_panic

/-- Met by a buffer that has grown beyond its limit. -/
example : ∃ q, bufRun (QueryBuf.newZeroed 4 2) [.extend [1, 2, 3]] = some q ∧ q.deref = [0, 0, 1, 2, 3] :=
  ⟨_, rfl, by decide⟩

/-! ## C39: queries -/

/-- **C39.** For every name with labels `ls` (no empty ones) and every type and buffer limit, building the query does not panic; the
query is a 12 byte header with id 0, flags RD and AD, one question and one additional record, then the name in wire form, the type,
class IN, and an OPT record with the DO bit; it is at most 283 bytes long, and reading its question gives the name and type back. -/
theorem C39_query_partial (L : UInt16) {n : Name} {ls : List Bytes} (h : HasLabels n ls) (ty : UInt16) :
    ∃ q, buildQuery L n ty = some q ∧
      q.deref = [0, 0, 0x01, 0x20, 0, 1, 0, 0, 0, 0, 0, 1] ++ (wire ls ++ (be16 ty ++ ([0, 1] ++
        [0, 0, 41, 0, 0, 0, 0, 0x80, 0, 0, 0]))) ∧
      q.deref.length ≤ 283 ∧
      IsMessage q.deref 0 0x0120 1 0 0 1 n ty 1 [0, 0, 41, 0, 0, 0, 0, 0x80, 0, 0, 0] := by
  obtain ⟨q, h1, h2⟩ := buildQuery_ok L n ty h.short
  have e : q.deref = [0, 0, 0x01, 0x20, 0, 1, 0, 0, 0, 0, 0, 1] ++ (wire ls ++ (be16 ty ++ ([0, 1] ++
        [0, 0, 41, 0, 0, 0, 0, 0x80, 0, 0, 0]))) := by
    rw [h2, h.writeName]; simp [queryMessage]
  refine ⟨q, h1, e, ?_, ?_⟩
  · have := writeName_length_le n.bytes
    have hs := h.short
    rw [h2, queryMessage_length]
    omega
  · refine ⟨wire ls ++ (be16 ty ++ ([0, 1] ++ [0, 0, 41, 0, 0, 0, 0, 0x80, 0, 0, 0])), ?_, ?_⟩
    · rw [e]; rfl
    · exact readName_reads.mp (by rw [readName_wire _ h]; rfl)

example : HasLabels ⟨ascii "a.example.com."⟩ [ascii "a", ascii "example", ascii "com"] := by decide

/-- **C39.** No name that can be constructed makes building the query panic, and it always has at most 283 bytes.
Missing from the full property: that the question decodes to the name if that has an empty label; see the next theorem. -/
theorem C39_no_panic (L : UInt16) {n : Name} (h : Obtainable n) (ty : UInt16) :
    ∃ q, buildQuery L n ty = some q ∧ q.deref.length ≤ 283 := by
  obtain ⟨q, h1, h2⟩ := buildQuery_ok L n ty h.short
  refine ⟨q, h1, ?_⟩
  have := writeName_length_le n.bytes
  have hs := h.short
  rw [h2, queryMessage_length]
  omega

example : Obtainable ⟨ascii "a.example.com."⟩ := obtainable_of (s := ascii "A.example.com.") (by decide)

/-- **C39, exact.** The question of the query is the name and type asked for if and only if the name has no empty label. -/
theorem C39_question_iff (L : UInt16) {n : Name} (h : Obtainable n) (ty : UInt16) :
    (∃ q body, buildQuery L n ty = some q ∧ IsMessage q.deref 0 0x0120 1 0 0 1 n ty 1 body) ↔ NoEmptyLabel n := by
  constructor
  · rintro ⟨q, body, h1, a, e, hr⟩
    obtain ⟨q', h1', h2⟩ := buildQuery_ok L n ty h.short
    obtain rfl : q' = q := Option.some.inj (h1'.symm.trans h1)
    rw [← readName_reads] at hr
    have e12 : a = writeName n.bytes ++ (be16 ty ++ ([0, 1] ++ ([0] ++ [0, 41] ++ [0, 0] ++ [0, 0, 0x80, 0] ++ [0, 0]))) := by
      have := congrArg (List.drop 12) e
      rw [h2] at this
      simp only [queryMessage, be16, List.cons_append, List.nil_append, List.append_assoc, List.drop_succ_cons, List.drop_zero] at this
      rw [← this]
      simp [be16]
    rw [e12] at hr
    obtain ⟨ls, hl⟩ := readName_write_labels hr
    exact hl.noEmptyLabel
  · intro hn
    obtain ⟨ls, hl⟩ := h.hasLabels hn
    obtain ⟨q, h1, _, _, h4⟩ := C39_query_partial L hl ty
    exact ⟨q, _, h1, h4⟩

/-- **C39 is false** for a name with an empty label: the query for `a..b.` asks for `a.`, of another type and class. -/
theorem C39_fails_for_empty_labels : Obtainable ⟨ascii "a..b."⟩ ∧
    (buildQuery 64 ⟨ascii "a..b."⟩ 16).map QueryBuf.deref = some (queryMessage [1, 97, 0, 1, 98, 0] 16) ∧
    (∀ msg, readName msg (([1, 97, 0, 1, 98, 0] : Bytes) ++ be16 16) = .ok (⟨ascii "a."⟩, [1, 98, 0, 0, 16])) :=
  ⟨obtainable_of (s := ascii "a..b.") (by decide), by decide +kernel,
    fun msg => readName_wire msg (n := ⟨ascii "a."⟩) (ls := [ascii "a"]) (by decide) [1, 98, 0, 0, 16]⟩

/-! ## C40, C41: responses

`processResponse` is the only way to hand a response to a builder. -/

/-- A response to the query for TXT records at `a.example.com.` with flag word `flags` and the given answers. -/
def exResponse (flags : UInt16) (count : UInt16) (answers : Bytes) : Bytes :=
  be16 0 ++ be16 flags ++ be16 1 ++ be16 count ++ be16 0 ++ be16 0 ++ (writeName (ascii "a.example.com.") ++ be16 16 ++ be16 1) ++ answers

/-- The builder for these examples. -/
def exBuilder : ProofBuilder := (ProofBuilder.new ⟨ascii "a.example.com."⟩ 16).1

/-- **C40.** A builder accepts only messages with id 0, QR set, opcode 0, TC clear, AD set, one question, at least one answer, and
RCODE 0 or 8.
Missing from the full property: RCODE 8 (NXRRSET), see the next theorem. -/
theorem C40_accepted_header_partial {b b' : ProofBuilder} {resp : Bytes} {more : List Bytes}
    (h : b.processResponse dbg resp = (b', .ok more)) :
    ∃ flags answers authorities additional qname qtype qclass body,
      IsMessage resp 0 flags 1 answers authorities additional qname qtype qclass body ∧
      (flagsOf flags).qr = true ∧ (flagsOf flags).opcode = 0 ∧ (flagsOf flags).tc = false ∧ (flagsOf flags).ad = true ∧
      ((flagsOf flags).rcode = 0 ∨ (flagsOf flags).rcode = 8) ∧ 1 ≤ answers.toNat := by
  obtain ⟨recs, _, _, _, hc, _⟩ := ProofBuilder.processResponse_ok h
  obtain ⟨f, an, ns, ar, qn, qt, qc, body, _, _, _, _, h1, h2, h3, h4, h5, h6, h7, _⟩ := hc
  exact ⟨f, an, ns, ar, qn, qt, qc, body, h1, h2, h3, h4, h5, h6, h7⟩

/-- Such a message is accepted (QR, RD, RA and AD set), and asks for the keys of the signer. -/
example : exBuilder.processResponse true (exResponse 0x81a0 2 (writeRR exTxt 300 ++ writeRR exSig 60)) =
    (⟨writeRR exTxt 300 ++ writeRR exSig 60, 60, [⟨ascii "example.com."⟩], 2, 3⟩,
      .ok [queryBytes ⟨ascii "example.com."⟩ 48, queryBytes ⟨ascii "example.com."⟩ 43]) := by decide +kernel

/-- **C40 is false:** a response with RCODE 8 (an error) is accepted. -/
theorem C40_fails_rcode_8 : (flagsOf 0x81a8).rcode = 8 ∧
    exBuilder.processResponse true (exResponse 0x81a8 1 (writeRR exTxt 300)) = (⟨writeRR exTxt 300, 300, [], 0, 1⟩, .ok []) := by
  decide +kernel

/-- **C41.** Processing a response succeeds iff responses are outstanding and the message is acceptable and all its answer and
authority records can be read. -/
theorem C41_accepts_iff {b : ProofBuilder} {resp : Bytes} :
    (∃ b' more, b.processResponse dbg resp = (b', .ok more)) ↔ 0 < b.pending ∧ ∃ recs, Contributes dbg resp recs := by
  constructor
  · rintro ⟨b', more, h⟩
    obtain ⟨recs, _, _, hp, hc, _⟩ := ProofBuilder.processResponse_ok h
    exact ⟨hp, recs, hc⟩
  · rintro ⟨hp, recs, hc⟩
    exact ProofBuilder.processResponse_accepts hp hc

/-- **C41.** Then exactly the answers and the denial records of the authority section are appended to the proof, in order; the
TTL becomes the minimum with the lowest TTL of these records; and the names asked about become those asked about before and
the signers of the RRSIGs among these records. -/
theorem C41_contributes {b b' : ProofBuilder} {resp : Bytes} {more : List Bytes} (h : b.processResponse dbg resp = (b', .ok more)) :
    ∃ recs ttl, Contributes dbg resp recs ∧ b'.proof = b.proof ++ encode recs ∧ IsMinTtl ttl recs ∧ b'.minTtl = min b.minTtl ttl ∧
      ∀ k, k ∈ b'.requested ↔ k ∈ b.requested ∨ k ∈ signers recs := by
  obtain ⟨recs, ttl, new, _, hc, ht, _, _, hn, rfl, _⟩ := ProofBuilder.processResponse_ok h
  exact ⟨recs, ttl, hc, rfl, ht, rfl, hn⟩

/-- What is contributed is determined by the message. -/
theorem C41_unique {resp : Bytes} {r1 r2 : List (RR × UInt32)} (h1 : Contributes dbg resp r1) (h2 : Contributes dbg resp r2) : r1 = r2 :=
  contributes_unique h1 h2

/-- An NSEC and an A record in the authority section: the first is kept, the second dropped. -/
example :
    let nsec := RR.nsec ⟨⟨ascii "a.com."⟩, ⟨ascii "b.com."⟩, NSecTypeMask.new⟩
    let a := RR.a ⟨⟨ascii "a.com."⟩, ⟨[1, 2, 3, 4], rfl⟩⟩
    handleResponse true (be16 0 ++ be16 0x81a0 ++ be16 1 ++ be16 1 ++ be16 2 ++ be16 0 ++ [0, 0, 16, 0, 1] ++ writeRR exTxt 300 ++
      writeRR a 1 ++ writeRR nsec 200) [] [] = ((writeRR exTxt 300 ++ writeRR nsec 200, []), .ok 200) := by decide +kernel

/-! ## C42: bounded number of queries -/

/-- **C42.** In every history at most ten queries are issued. -/
theorem C42_at_most_ten_queries {acc rej qs : List Bytes} {b : ProofBuilder} (h : Run dbg name ty acc rej qs b) : qs.length ≤ 10 := by
  obtain ⟨_, _, _, _, h⟩ := (run_inv h).queries
  exact h

/-- **C42.** After ten accepted responses the builder does not wait for any more. -/
theorem C42_awaits_at_most_ten {acc rej qs : List Bytes} {b : ProofBuilder} (h : Run dbg name ty acc rej qs b) (ha : b.awaiting = true) :
    acc.length < 10 := by
  have := (run_inv h).pending
  simp only [ProofBuilder.awaiting, maxRequests, Bool.and_eq_true, decide_eq_true_eq] at ha
  omega

/-- **C42.** The TCP driver returns after at most ten responses, whatever the peer sends and however often writing succeeds. -/
theorem C42_driver_returns (s : Stream) (name : Name) (ty : UInt16) : ∃ s' r, buildProof dbg 10 s name ty = some (s', r) := by
  have key : buildProof dbg 10 s name ty ≠ none := by
    unfold buildProof
    simp only
    split
    · simp
    · exact driveLoop_returns 10 _ _ _ _ _ (Run.new (dbg := dbg) (name := name) (ty := ty)) (by simp)
  cases h : buildProof dbg 10 s name ty with
  | none => exact absurd h key
  | some p => exact ⟨p.1, p.2, rfl⟩

/-- A history with one accepted response in which three queries have been issued. -/
theorem exRun : Run true ⟨ascii "a.example.com."⟩ 16 [exResponse 0x81a0 2 (writeRR exTxt 300 ++ writeRR exSig 60)] []
    [queryBytes ⟨ascii "a.example.com."⟩ 16, queryBytes ⟨ascii "example.com."⟩ 48, queryBytes ⟨ascii "example.com."⟩ 43]
    ⟨writeRR exTxt 300 ++ writeRR exSig 60, 60, [⟨ascii "example.com."⟩], 2, 3⟩ :=
  Run.accept Run.new (by decide +kernel)

/-- In it the builder is waiting for two more responses. -/
example : ∃ b, Run true ⟨ascii "a.example.com."⟩ 16 [exResponse 0x81a0 2 (writeRR exTxt 300 ++ writeRR exSig 60)] []
    [queryBytes ⟨ascii "a.example.com."⟩ 16, queryBytes ⟨ascii "example.com."⟩ 48, queryBytes ⟨ascii "example.com."⟩ 43] b ∧
    b.awaiting = true := ⟨_, exRun, by decide⟩

/-! ## C43: every signer is asked about once -/

/-- The queries for a signer. -/
def signerQueries (k : Name) : List Bytes := (questions k).map (fun q => queryMessage (writeName q.1.bytes) q.2)

theorem asks_eq_signerQueries (k : Name) : asks k = signerQueries k := by
  unfold asks signerQueries
  congr 1
  funext q
  exact queryBytes_eq q.1 q.2

/-- **C43.** In every history there is an enumeration without repetitions of the signers of all contributed RRSIGs such that the
queries issued are the initial query and then, for each signer once, the DNSKEY query and (except for the root) the DS query; if this
would be more than ten queries, then only for an initial part of the signers. -/
theorem C43_signers_asked_once {acc rej qs : List Bytes} {b : ProofBuilder} (h : Run dbg name ty acc rej qs b) :
    ∃ ks asked, AllSigners dbg acc ks ∧ asked <+: ks ∧
      qs = queryMessage (writeName name.bytes) ty :: asked.flatMap signerQueries ∧
      (1 + (ks.flatMap questions).length ≤ 10 → asked = ks) := by
  have inv := run_inv h
  obtain ⟨asked, h1, h2, h3, _⟩ := inv.queries
  refine ⟨b.requested, asked, inv.signers, h1, ?_, ?_⟩
  · rw [h2, queryBytes_eq]
    rw [show asks = signerQueries from funext asks_eq_signerQueries]
  · intro hc
    apply h3
    rw [inv.made]
    have : cost b.requested = (b.requested.flatMap questions).length := by simp [cost, List.length_flatMap]
    rw [this]
    exact hc

/-- In the history above, the signer `example.com.` has been asked about. -/
example : signers [(exTxt, 300), (exSig, 60)] = [⟨ascii "example.com."⟩] ∧
    questions ⟨ascii "example.com."⟩ = [(⟨ascii "example.com."⟩, 48), (⟨ascii "example.com."⟩, 43)] := by decide

/-! ## C44: `finish_proof` -/

/-- **C44.** `finish_proof` succeeds iff as many responses have been accepted as queries have been issued, and asking about all
signers needs no more than ten queries. -/
theorem C44_finish_iff {acc rej qs : List Bytes} {b : ProofBuilder} {ks : List Name} (h : Run dbg name ty acc rej qs b)
    (hk : AllSigners dbg acc ks) :
    (∃ r, b.finish = some r) ↔ acc.length = qs.length ∧ 1 + (ks.flatMap questions).length ≤ 10 := by
  have inv := run_inv h
  obtain ⟨asked, _, h2, h3, _⟩ := inv.queries
  have hc : (ks.flatMap questions).length = cost b.requested := by
    rw [cost_eq inv.signers hk]; simp [cost, List.length_flatMap]
  have hp := inv.pending
  have hm := inv.made
  rw [hc]
  have hq : b.made ≤ 10 → qs.length = b.made := by
    intro hle
    rw [h2, h3 hle, List.length_cons, asks_length]
    omega
  have hf : (∃ r, b.finish = some r) ↔ b.pending = 0 ∧ b.made ≤ 10 := by
    unfold ProofBuilder.finish
    simp only [maxRequests]
    split
    · simp only [reduceCtorEq, exists_false, false_iff]
      omega
    · simp only [Option.some.injEq, exists_eq', true_iff]
      omega
  rw [hf]
  constructor
  · rintro ⟨a, c⟩
    have := hq c
    omega
  · rintro ⟨a, c⟩
    have := hq (by omega)
    omega

/-- A complete history: one response without signatures. -/
theorem exRunDone : Run true ⟨ascii "a.example.com."⟩ 16 [exResponse 0x81a0 1 (writeRR exTxt 300)] []
    [queryBytes ⟨ascii "a.example.com."⟩ 16] ⟨writeRR exTxt 300, 300, [], 0, 1⟩ :=
  Run.accept Run.new (by decide +kernel)

example : (⟨writeRR exTxt 300, 300, [], 0, 1⟩ : ProofBuilder).finish = some (writeRR exTxt 300, 300) := by decide +kernel

/-- **C44.** If no response was rejected, the proof is the concatenation of what the accepted responses contribute, in order.
Missing from the full property: histories with rejected responses, for which it is false (C46). -/
theorem C44_proof_contents_partial {acc qs : List Bytes} {b : ProofBuilder} (h : Run dbg name ty acc [] qs b)
    {proof : Bytes} {ttl : UInt32} (hf : b.finish = some (proof, ttl)) :
    ∃ recss : List (List (RR × UInt32)), recss.length = acc.length ∧ (∀ p ∈ acc.zip recss, Contributes dbg p.1 p.2) ∧
      proof = encode recss.flatten := by
  obtain ⟨recss, h1, h2, h3, _⟩ := run_proof h rfl
  refine ⟨recss, h1, h2, ?_⟩
  unfold ProofBuilder.finish at hf
  split at hf
  · simp at hf
  · simp only [Option.some.injEq, Prod.mk.injEq] at hf
    rw [← hf.1, h3]

/-- **C44.** In any case the proof consists of whole records read from some response. -/
theorem C44_proof_is_records {acc rej qs : List Bytes} {b : ProofBuilder} (h : Run dbg name ty acc rej qs b)
    {proof : Bytes} {ttl : UInt32} (hf : b.finish = some (proof, ttl)) :
    ∃ recs : List (RR × UInt32), proof = encode recs ∧
      ∀ r ∈ recs, ∃ resp ∈ acc ++ rej, ∃ inp rest, parseWirePacketRR dbg resp inp = .ok (r, rest) := by
  obtain ⟨recs, h1, h2⟩ := run_proof_any h
  refine ⟨recs, ?_, h2⟩
  unfold ProofBuilder.finish at hf
  split at hf
  · simp at hf
  · simp only [Option.some.injEq, Prod.mk.injEq] at hf
    rw [← hf.1, h1]

/-! ## C45: TTL -/

/-- **C45.** If no response was rejected, the TTL returned by `finish_proof` is the lowest TTL of the records in the proof.
Missing from the full property: histories with rejected responses, for which it is false. -/
theorem C45_min_ttl_partial {acc qs : List Bytes} {b : ProofBuilder} (h : Run dbg name ty acc [] qs b)
    {proof : Bytes} {ttl : UInt32} (hf : b.finish = some (proof, ttl)) :
    ∃ recs : List (RR × UInt32), proof = encode recs ∧ IsMinTtl ttl recs := by
  obtain ⟨recss, h1, h2, h3, h4⟩ := run_proof h rfl
  have hp := (run_inv h).pending
  have hm := (run_inv h).made
  unfold ProofBuilder.finish at hf
  split at hf
  · simp at hf
  · rename_i hc
    simp only [Option.some.injEq, Prod.mk.injEq] at hf
    refine ⟨recss.flatten, by rw [← hf.1, h3], ?_⟩
    rcases h4 with ⟨e, _⟩ | h4
    · rw [e] at hp
      simp only [List.length_nil] at hp
      omega
    · rw [← hf.2]; exact h4

/-- The history `exRunDone` meets the conditions of the theorems on C44 and C45. -/
example : ∃ acc qs b, Run true ⟨ascii "a.example.com."⟩ 16 acc [] qs b ∧ b.finish = some (writeRR exTxt 300, 300) :=
  ⟨_, _, _, exRunDone, by decide +kernel⟩

/-- A response announcing two answers, with one (TTL 1) and half of another. -/
def exTruncated : Bytes := exResponse 0x81a0 2 (writeRR exTxt 1 ++ [1, 97])

/-- **C45 (and C44) are false** if a response was rejected: the truncated response is rejected, the builder then accepts a good
one, and the proof contains a record with TTL 1 although the TTL returned is 300. -/
theorem C45_fails_after_rejected : ∃ b, Run true ⟨ascii "a.example.com."⟩ 16 [exResponse 0x81a0 1 (writeRR exTxt 300)] [exTruncated]
    [queryBytes ⟨ascii "a.example.com."⟩ 16] b ∧ b.finish = some (writeRR exTxt 1 ++ writeRR exTxt 300, 300) :=
  ⟨⟨writeRR exTxt 1 ++ writeRR exTxt 300, 300, [], 0, 1⟩,
    Run.accept (Run.reject Run.new (b' := ⟨writeRR exTxt 1, 0xffffffff, [], 1, 1⟩) (by decide +kernel)) (by decide +kernel),
    by decide +kernel⟩

/-! ## C46: rejected responses -/

/-- **C46.** A rejected response changes nothing but the proof, to which whole records of the response may have been appended; and
it is rejected because no response was outstanding or it is not an acceptable message.
Missing from the full property: that the proof is unchanged, for which see the next theorems. -/
theorem C46_rejected_partial {b b' : ProofBuilder} {resp : Bytes} (h : b.processResponse dbg resp = (b', .err ())) :
    (b'.minTtl = b.minTtl ∧ b'.requested = b.requested ∧ b'.pending = b.pending ∧ b'.made = b.made) ∧
    (∃ recs : List (RR × UInt32), b'.proof = b.proof ++ encode recs ∧
      ∀ r ∈ recs, ∃ inp rest, parseWirePacketRR dbg resp inp = .ok (r, rest)) ∧
    (b.pending = 0 ∨ ¬ ∃ recs, Contributes dbg resp recs) := by
  obtain ⟨⟨recs, h1, rfl⟩, h2⟩ := ProofBuilder.processResponse_err h
  exact ⟨⟨rfl, rfl, rfl, rfl⟩, ⟨recs, rfl, h1⟩, h2.imp id (fun h ⟨r, hr⟩ => h r hr)⟩

/-- **C46 is false:** the truncated response leaves its first record in the proof. -/
theorem C46_fails_truncated : exBuilder.proof = [] ∧
    exBuilder.processResponse true exTruncated = (⟨writeRR exTxt 1, 0xffffffff, [], 1, 1⟩, .err ()) := by decide +kernel

/-- **C46.** A response with an unacceptable header has no effect at all. -/
theorem C46_bad_header_unchanged {b : ProofBuilder} {resp : Bytes} (h : readHeader resp = .err ()) :
    b.processResponse dbg resp = (b, .err ()) := by
  unfold ProofBuilder.processResponse handleResponse
  rw [h]
  simp

example : readHeader (exResponse 0x01a0 1 (writeRR exTxt 1)) = .err () := by decide +kernel

/-! ## C47: TCP -/

/-- **C47.** What `send_query` puts on the wire is the query with its length in front. -/
theorem C47_send {s s' : Stream} {q : Bytes} (h : q.length ≤ 65535) (hs : sendQuery s q = some s') :
    s'.sent = s.sent ++ frame q ∧ s'.incoming = s.incoming :=
  ⟨(sendQuery_frame h hs).1, (sendQuery_frame h hs).2.1⟩

/-- **C47.** `read_response` returns a message iff the stream continues with that message framed like this, and leaves the
rest; so reading what `send_query` wrote gives the query back, for every message of at most 65535 bytes. -/
theorem C47_read_iff {s s' : Stream} {m : Bytes} :
    readResponse s = some (m, s') ↔
      s.incoming = frame m ++ s'.incoming ∧ m.length ≤ 65535 ∧ s'.sent = s.sent ∧ s'.writesLeft = s.writesLeft := by
  constructor
  · intro h
    obtain ⟨a, b, c⟩ := readResponse_some h
    refine ⟨a, b, c, ?_⟩
    obtain ⟨inc, w, sent⟩ := s
    simp only at a c
    rw [a, readResponse_frame _ _ _ _ b] at h
    simp only [Option.some.injEq, Prod.mk.injEq, true_and] at h
    rw [← h]
  · rintro ⟨a, b, c, d⟩
    obtain ⟨inc, w, sent⟩ := s
    obtain ⟨inc', w', sent'⟩ := s'
    simp only at a c d
    subst a c d
    exact readResponse_frame _ _ _ _ b

example : frame [7, 8, 9] = [0, 3, 7, 8, 9] ∧ readResponse ⟨frame [7, 8, 9] ++ [1], 0, []⟩ = some ([7, 8, 9], ⟨[1], 0, []⟩) := by decide

/-- **C47.** If the driver succeeds, it has read a sequence of framed messages, in order, which form a history of the builder without
rejected responses that ends with the proof returned; it has sent exactly the queries of that history, framed; and it has not
touched what follows in the stream. -/
theorem C47_driver_sound {s s' : Stream} {fuel : Nat} {proof : Bytes} {ttl : UInt32} (hn : Obtainable name)
    (h : buildProof dbg fuel s name ty = some (s', .ok (proof, ttl))) :
    ∃ acc qs b, Run dbg name ty acc [] qs b ∧ b.finish = some (proof, ttl) ∧
      s.incoming = (acc.map frame).flatten ++ s'.incoming ∧ s'.sent = s.sent ++ (qs.map frame).flatten := by
  obtain ⟨acc, qs, b, h1, h2, h3, h4, _⟩ := buildProof_ok hn h
  exact ⟨acc, qs, b, h1, h2, h3, h4⟩

/-- **C47.** Conversely, if the peer sends the responses of a history that ends with a proof, framed one after the other, and
writing succeeds, then the driver returns this proof, whatever follows. -/
theorem C47_driver_complete {acc qs : List Bytes} {b : ProofBuilder} {proof : Bytes} {ttl : UInt32} (hn : Obtainable name)
    (h : Run dbg name ty acc [] qs b) (hf : b.finish = some (proof, ttl)) (hacc : ∀ m ∈ acc, m.length ≤ 65535) (rest sent : Bytes) (w : Nat) :
    buildProof dbg acc.length ⟨(acc.map frame).flatten ++ rest, 2 * qs.length + w, sent⟩ name ty =
      some (⟨rest, w, sent ++ (qs.map frame).flatten⟩, .ok (proof, ttl)) := by
  have hf' : b.pending = 0 ∧ b.made ≤ 10 := by
    unfold ProofBuilder.finish at hf
    split at hf
    · simp at hf
    · rename_i hc
      simp only [maxRequests] at hc
      omega
  have := buildProof_follows hn h rfl hacc hf'.2 0 w rest sent
  rw [Nat.add_zero] at this
  rw [this, driveLoop, if_neg (by simp [ProofBuilder.awaiting, hf'.1]), hf]

/-- The complete history above: one response and some unrelated bytes after it. -/
example : buildProof true 1 ⟨frame (exResponse 0x81a0 1 (writeRR exTxt 300)) ++ [1, 2, 3], 2, []⟩ ⟨ascii "a.example.com."⟩ 16 =
    some (⟨[1, 2, 3], 0, frame (queryBytes ⟨ascii "a.example.com."⟩ 16)⟩, .ok (writeRR exTxt 300, 300)) := by
  have := C47_driver_complete (dbg := true) ⟨ascii "a.example.com.", by decide⟩ exRunDone
    (show _ = some (writeRR exTxt 300, 300) by decide +kernel)
    (by intro m hm; rw [List.mem_singleton] at hm; subst hm; decide +kernel) [1, 2, 3] [] 0
  simpa using this

/-! ## C48: the finished proof -/

/-- **C48.** If no response was rejected and the records contributed are encodable (C03), the finished proof parses to exactly these
records in order.
Missing from the full property: rejected responses (false, C46) and records that are not encodable (false, see below). -/
theorem C48_proof_parses_partial {acc qs : List Bytes} {b : ProofBuilder} (h : Run dbg name ty acc [] qs b)
    {proof : Bytes} {ttl : UInt32} (hf : b.finish = some (proof, ttl))
    (henc : ∀ resp ∈ acc, ∀ recs, Contributes dbg resp recs → ∀ r ∈ recs, Encodable r.1) :
    ∃ recss : List (List (RR × UInt32)), recss.length = acc.length ∧ (∀ p ∈ acc.zip recss, Contributes dbg p.1 p.2) ∧
      ∀ dbg', parseRRStream dbg' proof = .ok (recss.flatten.map Prod.fst) := by
  obtain ⟨recss, h1, h2, h3⟩ := C44_proof_contents_partial h hf
  refine ⟨recss, h1, h2, fun dbg' => ?_⟩
  rw [h3]
  apply C04_stream_of_writes_partial
  intro p hp
  rw [List.mem_flatten] at hp
  obtain ⟨recs, hr, hp⟩ := hp
  obtain ⟨i, hi, rfl⟩ := List.mem_iff_getElem.mp hr
  have hz : (acc[i]'(by omega), recss[i]) ∈ acc.zip recss := by
    rw [List.mem_iff_getElem]
    exact ⟨i, by simp; omega, by simp⟩
  exact henc _ (List.getElem_mem _) _ (h2 _ hz) p hp

/-- The records of a response can fail to be encodable only through an empty label, an empty TXT record or an oversized RRSIG or
NSEC after decompression. -/
theorem C48_encodable {resp : Bytes} {recs : List (RR × UInt32)} (hc : Contributes dbg resp recs) (r : RR × UInt32) (hr : r ∈ recs)
    (howner : NoEmptyLabel r.1.name) (hinner : ∀ n ∈ rdataNames r.1, NoEmptyLabel n) (htxt : ∀ t, r.1 = .txt t → t.data ≠ [])
    (hfits : (rdata r.1).length ≤ 65535) : Encodable r.1 := by
  obtain ⟨h1, h2⟩ := readFrom_names (contributes_readFrom hc r hr)
  obtain ⟨inp, rest, hp⟩ := contributes_readFrom hc r hr
  obtain ⟨rr, t⟩ := r
  obtain ⟨_, _, _, _, _, _, _, h4⟩ := parseWirePacketRR_ok hp
  exact ⟨h1.hasLabels howner, fun n hn => (h2 n hn).hasLabels (hinner n hn), htxt, hfits, (readRData_props h4).2.2.2.1⟩

example : parseRRStream true (writeRR exTxt 300) = .ok [exTxt] := by
  have := C04_stream_of_writes_partial true [(exTxt, 300)] (by
    intro p hp; rw [List.mem_singleton] at hp; subst hp; exact exTxt_encodable)
  simpa using this

/-- **C48 is false:** a resolver that answers with an empty TXT record followed by another record makes the driver produce a
proof that can not be parsed. -/
theorem C48_fails_for_empty_txt : ∃ b proof, Run false ⟨ascii "a.example.com."⟩ 16
    [exResponse 0x81a0 2 (be16 0xc00c ++ be16 16 ++ be16 1 ++ be32 60 ++ be16 0 ++ writeRR exTxt 300)] []
    [queryBytes ⟨ascii "a.example.com."⟩ 16] b ∧ b.finish = some (proof, 60) ∧ parseRRStream false proof = .err () :=
  ⟨⟨writeRR (.txt ⟨⟨ascii "a.example.com."⟩, []⟩) 60 ++ writeRR exTxt 300, 60, [], 0, 1⟩, _,
    Run.accept Run.new (by decide +kernel), rfl, by decide +kernel⟩

end Dnssec.Props
