import Verif.Proofs.Wasm
import Verif.Props.Json
import Verif.Props.Query
import Verif.Props.Validation

/-! # C53, C57, C58: the WASM interface -/

namespace Dnssec.Props

open Dnssec Spec

variable {dbg : Bool} {ty : UInt16}

/-! ## C53: the queue of queries -/

/-- **C53.** After every history of calls on a builder made for `name` (with a final dot added if there is none), the underlying proof
builder has seen the responses passed in (those shorter than 65535 bytes), and the queries handed out so far, followed by those still in
the queue, are exactly the queries it issued, in order. -/
theorem C53_queue {name : Bytes} {w0 w : WasmBuilder} {calls : List WasmCall} {got : List (Option Bytes)}
    (h0 : initProofBuilder name ty = some w0) (h : WasmRun dbg w0 calls w got) :
    ∃ n acc rej qs, (Denotes name n ∨ (name.getLast? ≠ some 46 ∧ Denotes (name ++ [46]) n)) ∧
      Run dbg n ty acc rej qs w.builder ∧
      Interleaving acc rej ((responses calls).filter (fun r => decide (r.length < 65535))) ∧
      got.filterMap id ++ w.queue = qs := by
  obtain ⟨n, hn, rfl⟩ := initProofBuilder_some h0
  obtain ⟨acc, rej, qs, h1, h2, h3⟩ := wasmRun_run h
  exact ⟨n, acc, rej, qs, hn, h1, h3, h2⟩

/-- **C53.** `get_next_query` returns nothing exactly if all queries issued so far have been handed out. -/
theorem C53_exhausted {name : Bytes} {w0 w : WasmBuilder} {calls : List WasmCall} {got : List (Option Bytes)}
    (h0 : initProofBuilder name ty = some w0) (h : WasmRun dbg w0 calls w got) :
    (getNextQuery w).1 = none ↔ ∃ n acc rej, Run dbg n ty acc rej (got.filterMap id) w.builder ∧
      (Denotes name n ∨ (name.getLast? ≠ some 46 ∧ Denotes (name ++ [46]) n)) ∧
      Interleaving acc rej ((responses calls).filter (fun r => decide (r.length < 65535))) ∧ w.queue = [] := by
  obtain ⟨n, acc, rej, qs, h1, h2, h3, h4⟩ := C53_queue h0 h
  unfold getNextQuery
  constructor
  · intro hn
    have hq : w.queue = [] := by
      cases hw : w.queue with
      | nil => rfl
      | cons q qs => rw [hw] at hn; simp at hn
    rw [hq, List.append_nil] at h4
    subst h4
    exact ⟨n, acc, rej, h2, h1, h3, hq⟩
  · rintro ⟨_, _, _, _, _, _, hq⟩
    rw [hq]

/-- **C53.** A response that is not accepted, for whatever reason, leaves the queue as it is. -/
theorem C53_malformed {w w' : WasmBuilder} {resp : Bytes} (h : processQueryResponse dbg w resp = some w')
    (hm : ¬ ∃ recs, Contributes dbg resp recs) : w'.queue = w.queue := by
  rcases processQueryResponse_some h with ⟨_, rfl⟩ | ⟨_, more, hr, _⟩ | ⟨_, _, hq⟩
  · rfl
  · exact absurd (C41_accepts_iff.mp ⟨_, _, hr⟩).2 hm
  · exact hq

/-- A history: the first query is fetched, a response signed by `example.com.` arrives, a malformed one, and two more queries are
fetched, for the keys and the DS records. -/
def exWasm : WasmBuilder := ⟨exBuilder, [queryBytes ⟨ascii "a.example.com."⟩ 16]⟩

example : initProofBuilder (ascii "A.example.com") 16 = some exWasm := by decide +kernel

example : ∃ w, WasmRun true exWasm
    [.next, .process (exResponse 0x81a0 2 (writeRR exTxt 300 ++ writeRR exSig 300)), .process [1, 2], .next, .next, .next] w
    [some (queryBytes ⟨ascii "a.example.com."⟩ 16), some (queryBytes ⟨ascii "example.com."⟩ 48), some (queryBytes ⟨ascii "example.com."⟩ 43),
      none] := by
  have h := WasmRun.init (dbg := true) (w0 := exWasm)
  have h := h.next (q := some (queryBytes ⟨ascii "a.example.com."⟩ 16)) (w' := ⟨exBuilder, []⟩) (by decide +kernel)
  have h := h.process (resp := exResponse 0x81a0 2 (writeRR exTxt 300 ++ writeRR exSig 300))
    (w' := ⟨⟨writeRR exTxt 300 ++ writeRR exSig 300, 300, [⟨ascii "example.com."⟩], 2, 3⟩,
      [queryBytes ⟨ascii "example.com."⟩ 48, queryBytes ⟨ascii "example.com."⟩ 43]⟩) (by decide +kernel)
  have h := h.process (resp := [1, 2])
    (w' := ⟨⟨writeRR exTxt 300 ++ writeRR exSig 300, 300, [⟨ascii "example.com."⟩], 2, 3⟩,
      [queryBytes ⟨ascii "example.com."⟩ 48, queryBytes ⟨ascii "example.com."⟩ 43]⟩) (by decide +kernel)
  have h := h.next (q := some (queryBytes ⟨ascii "example.com."⟩ 48)) rfl
  have h := h.next (q := some (queryBytes ⟨ascii "example.com."⟩ 43)) rfl
  have h := h.next (q := none) rfl
  exact ⟨_, h⟩

example : ¬ ∃ recs, Contributes true [1, 2] recs := by
  intro h
  have := (C41_accepts_iff (dbg := true) (b := exBuilder) (resp := [1, 2])).mpr ⟨by decide, h⟩
  obtain ⟨b', more, e⟩ := this
  rw [show exBuilder.processResponse true [1, 2] = (exBuilder, .err ()) by decide +kernel] at e
  exact nomatch e

/-- **C53.** The proof handed out is the one the underlying builder finishes with. -/
theorem C53_proof (w : WasmBuilder) (proof : Bytes) : getUnverifiedProof w = some proof ↔ ∃ ttl, w.builder.finish = some (proof, ttl) := by
  unfold getUnverifiedProof
  cases w.builder.finish with
  | none => simp
  | some p =>
    obtain ⟨a, b⟩ := p
    simp

/-! ## C57: the same responses -/

/-- **C57.** For every builder and every response shorter than 65535 bytes, `process_query_response` does what `process_response` does.
Missing from the full property: responses of exactly 65535 bytes, for which it is false. -/
theorem C57_same_responses_partial (w : WasmBuilder) (resp : Bytes) (hl : resp.length < 65535) :
    (∀ b' more, w.builder.processResponse dbg resp = (b', .ok more) → processQueryResponse dbg w resp = some ⟨b', w.queue ++ more⟩) ∧
    (∀ b', w.builder.processResponse dbg resp = (b', .err ()) → processQueryResponse dbg w resp = some ⟨b', w.queue⟩) ∧
    ((∃ b', w.builder.processResponse dbg resp = (b', .panic)) ↔ processQueryResponse dbg w resp = none) := by
  refine ⟨fun b' more h => ?_, fun b' h => ?_, ?_⟩
  · rw [processQueryResponse, if_pos hl, h]
  · rw [processQueryResponse, if_pos hl, h]
  · rw [processQueryResponse, if_pos hl]
    cases hr : w.builder.processResponse dbg resp with
    | mk b r => cases r <;> simp

/-- A response that is accepted, one that is not. -/
example : (exResponse 0x81a0 1 (writeRR exTxt 300)).length < 65535 ∧
    ((ProofBuilder.new ⟨ascii "a.example.com."⟩ 16).1.processResponse true (exResponse 0x81a0 1 (writeRR exTxt 300))).2 = .ok [] ∧
    ((ProofBuilder.new ⟨ascii "a.example.com."⟩ 16).1.processResponse true [1, 2, 3]).2 = .err () := by decide +kernel

/-- **C57 is false:** a good response of exactly 65535 bytes, the largest message there is, is dropped. -/
theorem C57_fails_for_largest : ∃ resp b', resp.length = 65535 ∧ exBuilder.processResponse false resp = (b', .ok []) ∧
    b'.finish = some (writeRR exTxt 300, 300) ∧ processQueryResponse false exWasm resp = some exWasm ∧ getUnverifiedProof exWasm = none := by
  refine ⟨exResponse 0x81a0 1 (writeRR exTxt 300 ++ List.replicate (65535 - (exResponse 0x81a0 1 (writeRR exTxt 300)).length) 0),
    ⟨writeRR exTxt 300, 300, [], 0, 1⟩, ?_, ?_, ?_, ?_, ?_⟩
  · decide +kernel
  · decide +kernel
  · decide +kernel
  · decide +kernel
  · decide +kernel

/-! ## C58: `verify_byte_stream` -/

/-- **C58.** Whenever `verify_byte_stream` returns a text, it is JSON. If the stream parses and verifies, and no verified record has a
name with a backslash, it is the object with the validity window, cache TTL and exactly the verified records; otherwise, if the stream
does not verify, it is an object with the error.
Missing from the full property: names with a backslash (see C52), streams for which parsing panics (C06) and for which verifying does
not end (C31). -/
theorem C58_json_partial {p : Platform} {fuel : Nat} {stream out : Bytes} (h : verifyByteStream dbg p fuel stream = some (.ok out)) :
    (∃ rrs v, parseRRStream dbg stream = .ok rrs ∧ verifyRRStream dbg p fuel rrs = some (.ok v) ∧
      ((∀ r ∈ v.verifiedRrs, 92 ∉ r.name.bytes ∧ ∀ n ∈ rdataNames r, 92 ∉ n.bytes) → ∃ j, JsonText out j ∧ VerifiedVal v j)) ∨
    (∃ e, JsonText out (.obj [(ascii "error", .str e)]) ∧
      ((parseRRStream dbg stream = .err () ∧ e = ascii "Invalid") ∨
       ∃ rrs err, parseRRStream dbg stream = .ok rrs ∧ verifyRRStream dbg p fuel rrs = some (.err err) ∧
        e = match err with | .invalid => ascii "Invalid" | .unsupported => ascii "UnsupportedAlgorithm")) := by
  unfold verifyByteStream at h
  cases hp : parseRRStream dbg stream with
  | panic => rw [hp] at h; simp at h
  | err u =>
    rw [hp] at h
    simp only [Option.some.injEq, Res.ok.injEq] at h
    subst h
    exact Or.inr ⟨_, errorJson_value .invalid, Or.inl ⟨rfl, rfl⟩⟩
  | ok rrs =>
    rw [hp] at h
    simp only at h
    cases hv : verifyRRStream dbg p fuel rrs with
    | none => rw [hv] at h; simp at h
    | some r =>
      rw [hv] at h
      cases r with
      | panic => simp at h
      | err e =>
        simp only [Option.some.injEq, Res.ok.injEq] at h
        subst h
        exact Or.inr ⟨_, errorJson_value e, Or.inr ⟨rrs, e, rfl, hv, by cases e <;> rfl⟩⟩
      | ok v =>
        simp only [Option.some.injEq, Res.ok.injEq] at h
        subst h
        refine Or.inl ⟨rrs, v, rfl, hv, fun hb => ?_⟩
        have hc := (C23_contents hv).2
        have hn := stream_names hp
        apply verifiedJson_value
        · intro r hr
          obtain ⟨h1, h2, _⟩ := hc r hr
          exact record_json h2 (obtainable_plain (hn r h1).1 (hb r hr).1).1
            (fun n hm => (obtainable_plain ((hn r h1).2 n hm) ((hb r hr).2 n hm)).1)
        · intro r hr
          obtain ⟨h1, h2, _⟩ := hc r hr
          exact record_utf8 (obtainable_plain (hn r h1).1 (hb r hr).1).2
            (fun n hm => (obtainable_plain ((hn r h1).2 n hm) ((hb r hr).2 n hm)).2)

/-- The example stream, serialised, as JSON. -/
example : verifyByteStream true wPlatform 5 (encode (wStream.map (fun r => (r, 60)))) = some (.ok (ascii
    ("{\"valid_from\": 1000000000, \"expires\": 2000000000, \"max_cache_ttl\": 3600, \"verified_rrs\": [{\"type\":\"a\",\"name\":\"a.c.\"," ++
      "\"address\":[1, 2, 3, 4]}]}"))) := by decide +kernel

example : verifyByteStream true wPlatform 5 [1] = some (.ok (ascii "{\"error\":\"Invalid\"}")) := by decide +kernel

end Dnssec.Props
