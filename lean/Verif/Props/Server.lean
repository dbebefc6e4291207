import Verif.Proofs.Server
import Verif.Props.Http
import Verif.Props.Doh

/-! # C73, C74: responses that panic, and the server from the client's request to the resolver and back -/

namespace Dnssec.Props

open Dnssec Spec

variable {p : Platform} {w : World} {dbg : Bool} {name : Name} {ty : UInt16} {resolve : Bytes → Bytes}

/-! ## C73: panics while building a proof -/

/-- **C73, exactly:** `process_response` panics iff a response is outstanding, the header of the message is acceptable, and one of its
answer or authority records makes the parser panic (C06) while those before it can be read. -/
theorem C73_process_response_panics_iff_partial {b : ProofBuilder} {resp : Bytes} :
    (b.processResponse dbg resp).2 = .panic ↔ 0 < b.pending ∧ MessagePanics dbg resp := processResponse_panic_iff

/-- **C73.** In a release build this takes a block number and length byte in the response that overrun the 8192-byte mask, with that many bytes following.
Missing from the full property: those responses, for which it is false. -/
theorem C73_release_no_panic_partial {b : ProofBuilder} {resp : Bytes}
    (h : ∀ pre block len w post, resp = pre ++ block :: len :: (w ++ post) → w.length = len.toNat → block.toNat * 32 + len.toNat ≤ 8192) :
    (b.processResponse false resp).2 ≠ .panic := by
  rw [Ne, C73_process_response_panics_iff_partial]
  rintro ⟨_, fl, an, ns, ar, qn, qt, qc, body, recs, m, k, ⟨ah, e, hq⟩, _, _, _, _, _, _, _, hr, hp⟩
  obtain ⟨p1, e1⟩ := readName_suffix (readName_reads.mpr hq)
  have hsuf : ∀ {k : Nat} {inp : Bytes} {rs : List (RR × UInt32)} {rest : Bytes}, Records false resp k inp rs rest → ∃ q, inp = q ++ rest := by
    intro k inp rs rest h
    induction h with
    | nil => exact ⟨[], rfl⟩
    | cons g _ ih =>
      obtain ⟨q, e⟩ := ih
      obtain ⟨_, _, _, _, g1, g2, _⟩ := g
      obtain ⟨q', e'⟩ := readName_suffix (readName_reads.mpr g1)
      exact ⟨_, by rw [e', g2, e, ← List.append_assoc, ← List.append_assoc]⟩
  obtain ⟨p2, e2⟩ := hsuf hr
  obtain ⟨pre, block, len, w, post, f1, f2, f3⟩ := parseWirePacketRR_panic_contains (recordPanics_iff.mpr hp)
  have := h (be16 0 ++ (be16 fl ++ (be16 1 ++ (be16 an ++ (be16 ns ++ (be16 ar ++ (p1 ++ (be16 qt ++ (be16 qc ++ (p2 ++ pre))))))))))
    block len w post (by rw [e, e1, e2, f1]; simp) f2
  omega

/-- A response with one answer, the NSEC record of C06. -/
def panickingResponse : Bytes :=
  be16 0 ++ (be16 0x81a0 ++ (be16 1 ++ (be16 1 ++ (be16 0 ++ (be16 0 ++ ([1, 97, 0] ++ (be16 16 ++ (be16 1 ++ panickingNsec))))))))

theorem panickingResponse_panics (dbg : Bool) : MessagePanics dbg panickingResponse := by
  refine ⟨0x81a0, 1, 0, 0, ⟨ascii "a."⟩, 16, 1, panickingNsec, [], panickingNsec, 0, ⟨_, rfl, ?_⟩, by decide, by decide, by decide, by decide,
    by decide, by decide, by decide, .nil _, ?_⟩
  · exact readName_reads.mp (readName_wire _ (n := ⟨ascii "a."⟩) (ls := [[97]]) (by decide) _)
  · refine ⟨⟨ascii "."⟩, 47, 0, 0 :: 255 :: 33 :: List.replicate 33 0, panickingNsec.drop 1, [], ?_, by decide, by decide, ?_⟩
    · exact readName_reads.mp (readName_wire _ (n := ⟨ascii "."⟩) (ls := []) (by decide) _)
    · exact .nsec _ (255 :: 33 :: List.replicate 33 0) ⟨ascii "."⟩
        (readName_reads.mp (readName_wire _ (n := ⟨ascii "."⟩) (ls := []) (by decide) _)) (.here 255 33 _ (by decide) (by decide))

/-- **C73 is false:** there is a response on which every builder that has responses outstanding panics, in release and debug builds. -/
theorem C73_fails_nsec_window (dbg : Bool) {b : ProofBuilder} (h : 0 < b.pending) :
    (b.processResponse dbg panickingResponse).2 = .panic := C73_process_response_panics_iff_partial.mpr ⟨h, panickingResponse_panics dbg⟩

/-- The condition of `C73_release_no_panic_partial` is met by an accepted response. -/
example : (∀ pre block len w post, exResponse 0x81a0 2 (writeRR exTxt 300 ++ writeRR exSig 60) = pre ++ block :: len :: (w ++ post) →
      w.length = len.toNat → block.toNat * 32 + len.toNat ≤ 8192) ∧
    ∃ b more, exBuilder.processResponse false (exResponse 0x81a0 2 (writeRR exTxt 300 ++ writeRR exSig 60)) = (b, .ok more) := by
  refine ⟨?_, ⟨writeRR exTxt 300 ++ writeRR exSig 60, 60, [⟨ascii "example.com."⟩], 2, 3⟩,
    [queryBytes ⟨ascii "example.com."⟩ 48, queryBytes ⟨ascii "example.com."⟩ 43], by decide +kernel⟩
  have h : ∀ c ∈ exResponse 0x81a0 2 (writeRR exTxt 300 ++ writeRR exSig 60), c.toNat ≤ 248 := by decide +kernel
  intro pre block len w post e hl
  have h1 := h block (by rw [e]; simp)
  have h2 := len.toNat_lt
  omega

/-- **C73, the driver, exactly:** `build_proof` panics iff the peer sends, after responses that are accepted and while more are awaited, a
message on which `process_response` panics, and writing the queries up to then succeeds. -/
theorem C73_driver_panics_iff_partial (hn : Obtainable name) {s : Stream} :
    (∃ s', buildProof dbg 10 s name ty = some (s', .panic)) ↔
      ∃ acc qs b m rest, Run dbg name ty acc [] qs b ∧ b.awaiting = true ∧ MessagePanics dbg m ∧
        s.incoming = (acc.map frame).flatten ++ (frame m ++ rest) ∧ 2 * qs.length ≤ s.writesLeft ∧ ∀ x ∈ m :: acc, x.length ≤ 65535 :=
  buildProof_panic_iff hn

example : Obtainable ⟨ascii "a.example.com."⟩ := obtainable_of (s := ascii "a.example.com.") (by decide)

/-! ## C74: the server end to end -/

/-- **C74, exactly:** the task for a client panics, without answering, iff its first line (within 4096 bytes, UTF-8, followed by ASCII)
asks for a proof and the resolver answers the queries for it with a response that panics (`C73_driver_panics_iff_partial` says when). -/
theorem C74_panics_iff_partial (conn : Option Stream) {evs : List SockEvent} {line rest : Bytes} (h : FirstLine (received evs) line rest)
    (hl : line.length + 2 ≤ 4096) (hu : Utf8 line) (ha : ∀ c ∈ rest, c.toNat < 128) :
    serveTcp dbg conn evs = .panicked ↔
      ∃ name ty s s', ProofRequest line name ty ∧ conn = some s ∧ buildProof dbg 10 s name ty = some (s', .panic) := by
  obtain ⟨asked, out, h1, _, h3, h4⟩ := C51_dispatch_partial (dbg := dbg) (resolve := tcpResolver dbg conn) h hl hu ha
  constructor
  · intro hp
    rcases serveTcp_eq (dbg := dbg) conn evs with ⟨e, _⟩ | ⟨_, n, t, out', e, hl⟩
    · rw [e, h1] at hp; exact nomatch hp
    · rw [h1] at e
      simp only [Served.done.injEq] at e
      obtain ⟨s, e1, s', e2⟩ := lookupTcp_panic.mp hl
      exact ⟨n, t, s, s', (h3 n t).mp (by rw [e.1]; simp), e1, e2⟩
  · rintro ⟨n, t, s, s', hr, e1, e2⟩
    rcases serveTcp_eq (dbg := dbg) conn evs with ⟨_, e⟩ | ⟨e, _⟩
    · have hm := (h3 n t).mpr hr
      rcases h4 with rfl | ⟨n', t', rfl⟩
      · simp at hm
      · rw [List.mem_singleton, Prod.mk.injEq] at hm
        obtain ⟨rfl, rfl⟩ := hm
        exact absurd (lookupTcp_panic.mpr ⟨s, e1, s', e2⟩) (e n t out h1)
    · exact e

/-- **C74.** Whatever clients and resolver do, unless the task panics the client receives nothing (having sent no complete line), or a
response with its length in `Content-Length`, where
* the status is 200 iff the driver got a proof, which then is the body, with its TTL (C45) as the maximum age,
* the status is otherwise 400 or 404, and either nothing was looked up or connecting or building the proof failed. -/
theorem C74_response (conn : Option Stream) {evs : List SockEvent} {asked : List (Name × UInt16)} {out : Bytes}
    (h : serveTcp dbg conn evs = .done asked out) :
    (out = [] ∧ asked = []) ∨
    ∃ status headers body len, HttpResponse out status headers body ∧
      (∀ v, (ascii "Content-Length", v) ∈ headers ↔ v = len) ∧ IsDecimal body.length len ∧
      ((∃ name ty ttl maxAge s s', asked = [(name, ty)] ∧ conn = some s ∧ buildProof dbg 10 s name ty = some (s', .ok (body, ttl)) ∧
          status = ascii "200 OK" ∧ IsDecimal ttl.toNat maxAge ∧
          (ascii "Cache-Control", ascii "public, max-age=" ++ maxAge ++ ascii ", s-maxage=" ++ maxAge) ∈ headers) ∨
       ((status = ascii "400 Bad Request" ∨ status = ascii "404 Not Found") ∧
          (asked = [] ∨ ∃ name ty, asked = [(name, ty)] ∧
            (conn = none ∨ ∃ s s', conn = some s ∧ buildProof dbg 10 s name ty = some (s', .err ()))))) := by
  rcases serveTcp_eq (dbg := dbg) conn evs with ⟨e, hnp⟩ | ⟨e, _⟩
  · rw [e] at h
    rcases C50_response h with h' | ⟨status, headers, body, len, r1, r2, r3, r4⟩
    · exact Or.inl h'
    · refine Or.inr ⟨status, headers, body, len, r1, r2, r3, ?_⟩
      rcases r4 with ⟨n, t, ttl, age, f1, f2, f3, f4, f5⟩ | ⟨f1, f2⟩
      · unfold tcpResolver at f2
        split at f2
        · rename_i r hr
          simp only [Option.some.injEq] at f2
          subst f2
          obtain ⟨s, e1, s', e2⟩ := lookupTcp_ok.mp hr
          exact Or.inl ⟨n, t, ttl, age, s, s', f1, e1, e2, f3, f4, f5⟩
        · exact nomatch f2
      · refine Or.inr ⟨f1, f2.imp_right ?_⟩
        rintro ⟨n, t, g1, g2⟩
        refine ⟨n, t, g1, ?_⟩
        subst g1
        have hnp := hnp n t out h
        unfold tcpResolver at g2
        cases conn with
        | none => exact Or.inl rfl
        | some s =>
          refine Or.inr ?_
          obtain ⟨s', r, hb⟩ := C42_driver_returns (dbg := dbg) s n t
          unfold lookupTcp at g2 hnp
          simp only [hb] at g2 hnp
          cases r with
          | panic => exact absurd rfl hnp
          | ok r => exact nomatch g2
          | err u => exact ⟨s, s', rfl, hb⟩
  · rw [e] at h; exact nomatch h

/-- **C74.** A client that asks for a proof within 4096 bytes is answered unless the resolver sends a response that panics; if the
connection to the resolver fails, or the driver does, the answer is an error.
Missing from the full property: responses that panic (false, below), and requests whose end arrives together with bytes that are not UTF-8 (C49). -/
theorem C74_answered_partial (conn : Option Stream) {evs before : List SockEvent} {chunk line more : Bytes} (h : Completes evs before chunk line more)
    (hl : line.length + 2 ≤ 4096) (hu : Utf8 line) (hu' : Utf8 (more.take (4096 - (line.length + 2)))) (hr : ProofRequest line name ty)
    (hp : ∀ s s', conn = some s → buildProof dbg 10 s name ty ≠ some (s', .panic)) :
    ∃ out, serveTcp dbg conn evs = .done [(name, ty)] out ∧ out ≠ [] := by
  have h1 := C49_exactly (dbg := dbg) (resolve := tcpResolver dbg conn) h hl
  rw [if_pos ⟨hu, hu'⟩, decideLine_iff.mpr hr] at h1
  obtain ⟨out, ho, h2⟩ : ∃ out, answer (tcpResolver dbg conn) (.lookup name ty) = .done [(name, ty)] out ∧ out ≠ [] := by
    simp only [answer]
    cases tcpResolver dbg conn name ty with
    | none => exact ⟨_, rfl, by simp [httpError, ascii]⟩
    | some p => exact ⟨_, rfl, by simp [httpProof, ascii]⟩
  rw [ho] at h1
  rcases serveTcp_eq (dbg := dbg) conn evs with ⟨e, _⟩ | ⟨_, n, t, out', e, hl⟩
  · exact ⟨out, e.trans h1, h2⟩
  · rw [h1] at e
    simp only [Served.done.injEq, List.cons.injEq, Prod.mk.injEq, and_true] at e
    obtain ⟨⟨rfl, rfl⟩, _⟩ := e
    obtain ⟨s, e1, s', e2⟩ := lookupTcp_panic.mp hl
    exact absurd e2 (hp s s' e1)

/-- **C74 is false:** with a resolver that sends this one response, the task for a good request panics and the client gets no answer. -/
theorem C74_fails_nsec_window (dbg : Bool) :
    serveTcp dbg (some ⟨frame panickingResponse, 2, []⟩) [.data (exLine ++ crlf)] = .panicked := by
  have hrec : received [.data (exLine ++ crlf)] = exLine ++ crlf ++ [] := by decide +kernel
  have hno : ∀ a b, exLine ++ [13] ≠ a ++ crlf ++ b := noLine_iff.mpr (by decide +kernel)
  rw [C74_panics_iff_partial _ ⟨hrec, hno⟩ (by decide) (by decide +kernel) (by simp)]
  have hn : Obtainable ⟨ascii "a."⟩ := ⟨ascii "a.", by decide⟩
  obtain ⟨s', hs⟩ := (C73_driver_panics_iff_partial (dbg := dbg) (ty := 16) hn (s := ⟨frame panickingResponse, 2, []⟩)).mpr
    ⟨[], _, _, panickingResponse, [], .new, by decide, panickingResponse_panics dbg, by simp, by simp, by decide +kernel⟩
  exact ⟨_, _, _, s', decideLine_iff.mp (by decide +kernel), rfl, hs⟩

/-- **C74, end to end:** in a correctly signed world with one to four zones below the root, and with a correctly functioning resolver that
answers over TCP in whatever order, a client that asks for the records gets a response with status 200, whose body is a proof that
parses and verifies, and the verified records are exactly those of the answer (other than denials). Missing: the cases in which C67 is
false. -/
theorem C74_served_proof_verifies_partial (hw : w.Signed p) (hk : w.AnsweredAnchoredFirst dbg p resolve) (hr : Honest dbg w name ty resolve) (h1 : w.zones ≠ []) (h4 : w.zones.length ≤ 4)
    (hlen : ∀ q, (resolve q).length ≤ 65535) {answered : List Bytes} {b : ProofBuilder} (hs : Session dbg resolve name ty [] answered b)
    {evs before : List SockEvent} {chunk line more : Bytes} (h : Completes evs before chunk line more)
    (hl : line.length + 2 ≤ 4096) (hu : Utf8 line) (hu' : Utf8 (more.take (4096 - (line.length + 2)))) (hq : ProofRequest line name ty)
    (tail sent : Bytes) (writes : Nat) :
    ∃ out headers proof inp,
      serveTcp dbg (some ⟨((answered.map resolve).map frame).flatten ++ tail, 2 * answered.length + writes, sent⟩) evs = .done [(name, ty)] out ∧
      HttpResponse out (ascii "200 OK") headers proof ∧ (∀ dbg', parseRRStream dbg' proof = .ok inp) ∧
      ∀ dbg', ∃ fuel v, verifyRRStream dbg' p fuel inp = some (.ok v) ∧
        ∀ r, r ∈ v.verifiedRrs ↔ ∃ s ∈ w.answer, s.ty ≠ 47 ∧ s.ty ≠ 50 ∧ r ∈ s.records := by
  obtain ⟨_, _, hcount, hdone⟩ := C67_build_then_verify_partial hw hk hr h1 h4 hs
  obtain ⟨proof, ttl, inp, f1, f2, f3⟩ := hdone rfl
  obtain ⟨qs, hrun, hperm, _⟩ := session_run hw hr hs
  have hqs : qs.length = answered.length := by simpa using hperm.length_eq
  have hn : Obtainable name := by
    obtain ⟨_, _, d, _, _, _, _, _, _, _, hd, _⟩ := hq.form
    exact ⟨d, hd⟩
  have hm : b.made ≤ 10 := by
    unfold ProofBuilder.finish at f1
    split at f1
    · simp at f1
    · rename_i hc
      simp only [maxRequests] at hc
      omega
  simp only [List.length_nil, Nat.add_zero] at hcount
  have hdrive : buildProof dbg 10 ⟨((answered.map resolve).map frame).flatten ++ tail, 2 * answered.length + writes, sent⟩ name ty =
      some (⟨tail, writes, sent ++ (qs.map frame).flatten⟩, .ok (proof, ttl)) := by
    have := buildProof_follows hn hrun rfl (by
      intro m hm
      obtain ⟨q, _, rfl⟩ := List.mem_map.mp hm
      exact hlen q) hm (10 - answered.length) writes tail sent
    rw [List.length_map, show answered.length + (10 - answered.length) = 10 by omega, hqs] at this
    rw [this]
    have hnot : ¬ b.awaiting = true := by
      unfold ProofBuilder.finish at f1
      unfold ProofBuilder.awaiting
      split at f1
      · simp at f1
      · rename_i hc
        simp only [Bool.and_eq_true, decide_eq_true_eq]
        omega
    generalize 10 - answered.length = fuel
    cases fuel <;> (rw [driveLoop, if_neg hnot, f1])
  obtain ⟨out, e, hne⟩ := C74_answered_partial (some ⟨((answered.map resolve).map frame).flatten ++ tail, 2 * answered.length + writes, sent⟩)
    h hl hu hu' hq (by
      intro s s' es ep
      simp only [Option.some.injEq] at es
      subst es
      rw [hdrive] at ep
      simp at ep)
  rcases C74_response _ e with ⟨he, _⟩ | ⟨status, headers, body, len, g1, _, _, g4⟩
  · exact absurd he hne
  · rcases g4 with ⟨n, t, ttl', age, s, s', k1, k2, k3, k4, _⟩ | ⟨_, k | ⟨n, t, k1, k | ⟨s, s', k2, k3⟩⟩⟩
    · simp only [Option.some.injEq] at k2
      simp only [List.cons.injEq, Prod.mk.injEq, and_true] at k1
      obtain ⟨rfl, rfl⟩ := k1
      subst k2
      rw [hdrive] at k3
      simp only [Option.some.injEq, Prod.mk.injEq, Res.ok.injEq] at k3
      obtain ⟨_, rfl, _⟩ := k3
      subst k4
      exact ⟨out, headers, proof, inp, e, g1, f2, f3⟩
    · simp at k
    · simp at k
    · simp only [Option.some.injEq] at k2
      simp only [List.cons.injEq, Prod.mk.injEq, and_true] at k1
      obtain ⟨rfl, rfl⟩ := k1
      subst k2
      rw [hdrive] at k3
      simp at k3

/-- The theorem applies to the world, resolver and session of C67, for a client that asks for the address in two segments
and sends further bytes, some of which are not ASCII. -/
example : ∃ (answered : List Bytes) (out : Bytes) (headers : List (Bytes × Bytes)) (proof : Bytes) (inp : List RR) (v : Verified) (fuel : Nat),
    serveTcp true (some ⟨((answered.map exResolve).map frame).flatten ++ [], 2 * answered.length + 0, []⟩)
      [.data (ascii "GET /dnssecproof?d=X.c.&t"), .data (ascii "=a HTTP/1.1\r\nHost: " ++ [0xc3, 0xa9]), .data [0xff]] = .done [(⟨ascii "x.c."⟩, 1)] out ∧
    HttpResponse out (ascii "200 OK") headers proof ∧ parseRRStream false proof = .ok inp ∧
    verifyRRStream false lenPlatform fuel inp = some (.ok v) ∧ wA "x.c." ∈ v.verifiedRrs := by
  obtain ⟨ans, b, hs, _⟩ := session_fifo exSigned (exHonest true) (by decide) 10 _ [] _ (by simp) .new .new
  obtain ⟨out, headers, proof, inp, h1, h2, h3, h4⟩ := C74_served_proof_verifies_partial exSigned (answeredFirst exSigned (exHonest true) exAnchored) (exHonest true) (by simp [exWorld]) (by decide)
    (fun q => Nat.le_of_lt (exResolve_short q)) hs
    (evs := [.data (ascii "GET /dnssecproof?d=X.c.&t"), .data (ascii "=a HTTP/1.1\r\nHost: " ++ [0xc3, 0xa9]), .data [0xff]])
    (before := [.data (ascii "GET /dnssecproof?d=X.c.&t")]) (chunk := ascii "=a HTTP/1.1\r\nHost: " ++ [0xc3, 0xa9])
    (line := ascii "GET /dnssecproof?d=X.c.&t=a HTTP/1.1") (more := ascii "Host: " ++ [0xc3, 0xa9])
    ⟨⟨[.data [0xff]], rfl⟩, by decide +kernel, by decide +kernel, by decide +kernel, noLine_iff.mpr (by decide +kernel)⟩ (by decide +kernel)
    (utf8Valid_iff.mp (by decide +kernel)) (utf8Valid_iff.mp (by decide +kernel))
    (decideLine_iff.mp (by decide +kernel)) [] [] 0
  obtain ⟨fuel, v, h5, h6⟩ := h4 false
  exact ⟨ans, out, headers, proof, inp, v, fuel, h1, h2, h3 false, h5,
    (h6 _).mpr ⟨lA, by simp [exWorld], by decide, by decide, by simp [lA]⟩⟩

end Dnssec.Props
