import Verif.Proofs.Http

/-! # C49–C51: the HTTP server -/

namespace Dnssec.Props

open Dnssec Spec

variable {dbg : Bool} {resolve : Name → UInt16 → Option (Bytes × UInt32)}

/-- The request line `GET /dnssecproof?d=a.&t=txt HTTP/1.1`. -/
def exLine : Bytes := ascii "GET /dnssecproof?d=a.&t=txt HTTP/1.1"

/-! ## C49: segmentation -/

/-- **C49, exactly:** however the bytes sent by the client are split into reads,
* if there is a line within the first 4096 bytes, the decision is made from that line and from whether the line and an initial part of
  what follows are UTF-8;
* if there is none although 4096 bytes were sent, the request is rejected as too large;
* if the client stops before either, the connection is closed without an answer. -/
theorem C49_outcome (dbg : Bool) (resolve : Name → UInt16 → Option (Bytes × UInt32)) (evs : List SockEvent) :
    (∀ line rest, FirstLine (received evs) line rest → line.length + 2 ≤ 4096 →
      ∃ j, serve dbg resolve evs = answer resolve
        (if Utf8 line ∧ Utf8 (rest.take j) then decideLine line else badRequest)) ∧
    (NoLine ((received evs).take 4096) → 4096 ≤ (received evs).length →
      serve dbg resolve evs = answer resolve (.reject (ascii "400 Bad Request") (ascii "Request Too Large"))) ∧
    (NoLine (received evs) → (received evs).length < 4096 → serve dbg resolve evs = .done [] []) := by
  have hs := readRequest_spec evs [] (by simp) (by intro a b; simp [crlf])
  simp only [List.nil_append, show httpBufSize = 4096 from rfl] at hs
  have hline : ∀ {line rest : Bytes} {n : Nat}, FirstLine (received evs) line rest → line.length + 2 ≤ n →
      ¬ NoLine ((received evs).take n) := by
    intro line rest n hf hn hno
    refine hno line (rest.take (n - (line.length + 2))) ?_
    rw [hf.1, List.take_append, List.take_of_length_le (by simp [crlf]; exact hn)]
    simp [crlf]
  refine ⟨fun line rest hf hl => ?_, fun hno hlen => ?_, fun hno hlen => ?_⟩
  · unfold serve
    cases hr : readRequest [] evs with
    | closed =>
      rw [hr] at hs
      simp only at hs
      refine absurd ?_ (hline hf hl)
      rw [List.take_of_length_le (Nat.le_of_lt hs.1)]
      exact hs.2
    | tooLarge =>
      rw [hr] at hs
      simp only at hs
      exact absurd hs.2 (hline hf hl)
    | request b =>
      rw [hr] at hs
      simp only at hs ⊢
      obtain ⟨hp, _, hc⟩ := hs
      have hpl := firstLine_prefix hf hp
      have hlen : line.length + 2 ≤ b.length := by
        refine Nat.le_of_not_lt fun hlt => ?_
        have := noLine_iff.mp (hpl.2 hlt)
        rw [hc] at this; exact nomatch this
      obtain ⟨j, hj⟩ := hpl.1 hlen
      refine ⟨j, ?_⟩
      rw [hj, decideBuf_line hf.2]
      simp only [utf8Valid_iff]
  · unfold serve
    cases hr : readRequest [] evs with
    | closed =>
      rw [hr] at hs
      simp only at hs
      omega
    | tooLarge => rfl
    | request b =>
      rw [hr] at hs
      simp only at hs
      obtain ⟨hp, hl, hc⟩ := hs
      obtain ⟨x, y, hxy⟩ := hasCRLF_iff.mp hc
      have : b <+: (received evs).take 4096 := List.prefix_take_iff.mpr ⟨hp, hl⟩
      obtain ⟨s, hs⟩ := this
      exact absurd (by rw [← hs, hxy]; simp) (hno x (y ++ s))
  · unfold serve
    cases hr : readRequest [] evs with
    | closed => rfl
    | tooLarge =>
      rw [hr] at hs
      simp only at hs
      omega
    | request b =>
      rw [hr] at hs
      simp only at hs
      obtain ⟨⟨s, hs⟩, hl, hc⟩ := hs
      obtain ⟨x, y, hxy⟩ := hasCRLF_iff.mp hc
      exact absurd (by rw [← hs, hxy]; simp) (hno x (y ++ s))

/-- **C49, exactly:** which bytes after the line matter: those that arrive together with its end, up to the size of the buffer. -/
theorem C49_exactly {evs before : List SockEvent} {chunk line more : Bytes} (h : Completes evs before chunk line more)
    (hl : line.length + 2 ≤ 4096) :
    serve dbg resolve evs = answer resolve
      (if Utf8 line ∧ Utf8 (more.take (4096 - (line.length + 2))) then decideLine line else badRequest) := by
  obtain ⟨after, rfl⟩ := h.events
  have hr := readRequest_completes after chunk line more hl before [] h.open_ (by simpa using h.incomplete) (by simpa using h.complete)
  simp only [List.nil_append] at hr
  have e : (received before ++ chunk).take 4096 = line ++ crlf ++ more.take (4096 - (line.length + 2)) := by
    have e1 : (line ++ crlf).length = line.length + 2 := by simp [crlf]
    rw [h.complete.1, List.take_append, List.take_of_length_le (by rw [e1]; exact hl), e1]
  rw [show httpBufSize = 4096 from rfl, e] at hr
  unfold serve
  rw [hr]
  simp only
  rw [decideBuf_line h.complete.2]
  simp only [utf8Valid_iff]

/-- Some read completes the line, if the client sends one. -/
theorem C49_completed {evs : List SockEvent} {line rest : Bytes} (h : FirstLine (received evs) line rest) :
    ∃ before chunk more, Completes evs before chunk line more ∧ more <+: rest := by
  obtain ⟨before, chunk, more, after, h1, h2, h3, h4, h5⟩ := completes_exists (evs := evs) [] rest (by simpa using h) (by simp)
  exact ⟨before, chunk, more, ⟨⟨after, h1⟩, h2, by simpa using h3, by simpa using h4⟩, h5⟩

/-- A line completed by the second of three reads, together with the bytes `Host`. -/
example : Completes [.data (exLine ++ [13]), .wouldBlock, .data (10 :: ascii "Host"), .data [0xff]] [.data (exLine ++ [13]), .wouldBlock]
    (10 :: ascii "Host") exLine (ascii "Host") :=
  ⟨⟨[.data [0xff]], rfl⟩, by decide, by decide, by decide +kernel, noLine_iff.mpr (by decide +kernel)⟩

/-- **C49.** If what the client sends after the request line is ASCII, two clients sending the same request line (within 4096 bytes) are
answered the same, however the bytes are split into reads, whatever follows the line, and in both build modes.
Missing from the full property: other bytes after the line, for which it is false. -/
theorem C49_segmentation_partial (dbg' : Bool) {evs evs' : List SockEvent} {line rest rest' : Bytes}
    (h : FirstLine (received evs) line rest) (h' : FirstLine (received evs') line rest') (hl : line.length + 2 ≤ 4096)
    (ha : ∀ c ∈ rest, c.toNat < 128) (ha' : ∀ c ∈ rest', c.toNat < 128) :
    serve dbg resolve evs = serve dbg' resolve evs' := by
  obtain ⟨j, e⟩ := (C49_outcome dbg resolve evs).1 line rest h hl
  obtain ⟨j', e'⟩ := (C49_outcome dbg' resolve evs').1 line rest' h' hl
  have v : ∀ {r : Bytes} {j : Nat}, (∀ c ∈ r, c.toNat < 128) → Utf8 (r.take j) := fun hr =>
    utf8Valid_iff.mp (utf8Valid_ascii fun c hc => hr c (List.mem_of_mem_take hc))
  rw [e, e']
  simp only [v ha, v ha']

/-- A request split within the line break and with an interrupted read, and the request in one piece with a header. -/
example : received [.data (exLine ++ [13]), .wouldBlock, .data [10]] = exLine ++ crlf ++ [] ∧
    received [.data (exLine ++ crlf ++ ascii "Host: b\r\n\r\n")] = exLine ++ crlf ++ ascii "Host: b\r\n\r\n" ∧
    NoLine (exLine ++ [13]) ∧ exLine.length + 2 ≤ 4096 :=
  ⟨by decide +kernel, by decide +kernel, noLine_iff.mpr (by decide +kernel), by decide⟩

example : serve true (fun _ _ => none) [.data (exLine ++ [13]), .wouldBlock, .data [10]] =
    serve false (fun _ _ => none) [.data (exLine ++ crlf ++ ascii "Host: b\r\n\r\n")] := by decide +kernel

/-- **C49 is false:** the same bytes, a valid request line followed by a byte that is not UTF-8, are served if the line arrives in its own
segment and rejected if everything arrives together. -/
theorem C49_fails_for_other_bytes :
    received [.data (exLine ++ crlf), .data [0xff]] = received [.data (exLine ++ crlf ++ [0xff])] ∧
    serve dbg resolve [.data (exLine ++ crlf), .data [0xff]] = answer resolve (.lookup ⟨ascii "a."⟩ 16) ∧
    serve dbg resolve [.data (exLine ++ crlf ++ [0xff])] = answer resolve badRequest := by
  refine ⟨by decide +kernel, ?_, ?_⟩
  · have h : readRequest [] [.data (exLine ++ crlf), .data [0xff]] = .request (exLine ++ crlf) := by decide +kernel
    have h2 : decideBuf dbg (exLine ++ crlf) = some (.lookup ⟨ascii "a."⟩ 16) := by cases dbg <;> decide +kernel
    simp only [serve, h, h2]
  · have h : readRequest [] [.data (exLine ++ crlf ++ [0xff])] = .request (exLine ++ crlf ++ [0xff]) := by decide +kernel
    have h2 : decideBuf dbg (exLine ++ crlf ++ [0xff]) = some badRequest := by cases dbg <;> decide +kernel
    simp only [serve, h, h2]

/-- The server never panics, whatever the client sends. -/
theorem C49_no_panic (evs : List SockEvent) : serve dbg resolve evs ≠ .panicked := by
  have hans : ∀ d, answer resolve d ≠ .panicked := by
    intro d
    cases d with
    | reject s m => simp [answer]
    | lookup n t => simp only [answer]; split <;> simp
  by_cases hc : hasCRLF ((received evs).take 4096) = true
  · obtain ⟨line, rest, h1, h2⟩ := firstLine_exists hc
    have hf : FirstLine (received evs) line (rest ++ (received evs).drop 4096) :=
      ⟨by rw [← List.append_assoc, ← h1, List.take_append_drop], h2⟩
    have hl : line.length + 2 ≤ 4096 := by
      have := congrArg List.length h1
      simp only [List.length_take, List.length_append, crlf, List.length_cons, List.length_nil] at this
      omega
    obtain ⟨j, e⟩ := (C49_outcome dbg resolve evs).1 _ _ hf hl
    rw [e]
    exact hans _
  · have hno : NoLine ((received evs).take 4096) := noLine_iff.mpr (by simpa using hc)
    by_cases hl : 4096 ≤ (received evs).length
    · rw [(C49_outcome dbg resolve evs).2.1 hno hl]; exact hans _
    · rw [(C49_outcome dbg resolve evs).2.2 (by rwa [List.take_of_length_le (by omega)] at hno) (by omega)]; simp

/-! ## C50: framing of responses -/

/-- **C50.** Whatever is written to a client is either nothing, or a response whose `Content-Length` is the number of bytes of its
body. If a proof was obtained the status is 200, the body is the proof and its TTL the maximum age; in every other case the status
is 400 or 404. -/
theorem C50_response {evs : List SockEvent} {asked : List (Name × UInt16)} {out : Bytes} (h : serve dbg resolve evs = .done asked out) :
    (out = [] ∧ asked = []) ∨
    ∃ status headers body len, HttpResponse out status headers body ∧
      (∀ v, (ascii "Content-Length", v) ∈ headers ↔ v = len) ∧ IsDecimal body.length len ∧
      ((∃ name ty ttl maxAge, asked = [(name, ty)] ∧ resolve name ty = some (body, ttl) ∧ status = ascii "200 OK" ∧
          IsDecimal ttl.toNat maxAge ∧ (ascii "Cache-Control", ascii "public, max-age=" ++ maxAge ++ ascii ", s-maxage=" ++ maxAge) ∈ headers) ∨
       ((status = ascii "400 Bad Request" ∨ status = ascii "404 Not Found") ∧
          (asked = [] ∨ ∃ name ty, asked = [(name, ty)] ∧ resolve name ty = none))) := by
  have dec : ∀ n, ∀ c ∈ decimal n, c ≠ 13 ∧ c ≠ 10 := by
    intro n c hc
    have := (decimal_int n).digits c hc
    exact ⟨by rintro rfl; revert this; decide, by rintro rfl; revert this; decide⟩
  have lit : ∀ s : Bytes, (∀ c ∈ s, c ≠ 13 ∧ c ≠ 10) → ∀ t : Bytes, (∀ c ∈ t, c ≠ 13 ∧ c ≠ 10) → ∀ c ∈ s ++ t, c ≠ 13 ∧ c ≠ 10 := by
    intro s hs t ht c hc
    rcases List.mem_append.mp hc with h | h
    · exact hs c h
    · exact ht c h
  have err : ∀ status msg : Bytes, (status = ascii "400 Bad Request" ∨ status = ascii "404 Not Found") →
      ∃ headers len, HttpResponse (httpError status msg) status headers msg ∧
        (∀ v, (ascii "Content-Length", v) ∈ headers ↔ v = len) ∧ IsDecimal msg.length len := by
    intro status msg hstat
    refine ⟨[(ascii "Content-Length", decimal msg.length), (ascii "Content-Type", ascii "text/plain"),
      (ascii "Access-Control-Allow-Origin", ascii "*")], decimal msg.length, ⟨?_, ?_, ?_⟩, ?_, decimal_int _⟩
    · unfold httpError
      simp only [List.map_cons, List.map_nil, List.flatten_cons, List.flatten_nil, List.append_assoc, List.append_nil]
      rfl
    · rcases hstat with rfl | rfl <;> decide
    · intro hd hmem
      simp only [List.mem_cons, List.not_mem_nil, or_false] at hmem
      rcases hmem with rfl | rfl | rfl
      · exact ⟨show ∀ c ∈ ascii "Content-Length", c ≠ 13 ∧ c ≠ 10 ∧ c ≠ 58 by decide, dec _⟩
      · exact ⟨by decide, by decide⟩
      · exact ⟨by decide, by decide⟩
    · intro v
      simp only [List.mem_cons, Prod.mk.injEq, true_and, List.not_mem_nil, or_false]
      constructor
      · rintro (h | ⟨h, _⟩ | ⟨h, _⟩)
        · exact h
        · exact absurd h (by decide)
        · exact absurd h (by decide)
      · exact Or.inl
  have ok : ∀ (proof : Bytes) (ttl : UInt32), ∃ headers len, HttpResponse (httpProof proof ttl) (ascii "200 OK") headers proof ∧
      (∀ v, (ascii "Content-Length", v) ∈ headers ↔ v = len) ∧ IsDecimal proof.length len ∧
      (ascii "Cache-Control", ascii "public, max-age=" ++ decimal ttl.toNat ++ ascii ", s-maxage=" ++ decimal ttl.toNat) ∈ headers := by
    intro proof ttl
    refine ⟨[(ascii "Content-Length", decimal proof.length), (ascii "Content-Type", ascii "application/octet-stream"),
      (ascii "Cache-Control", ascii "public, max-age=" ++ decimal ttl.toNat ++ ascii ", s-maxage=" ++ decimal ttl.toNat),
      (ascii "Access-Control-Allow-Origin", ascii "*")], decimal proof.length, ⟨?_, by decide, ?_⟩, ?_, decimal_int _, by simp⟩
    · unfold httpProof
      simp only [List.map_cons, List.map_nil, List.flatten_cons, List.flatten_nil, List.append_assoc, List.append_nil]
      rfl
    · intro hd hmem
      simp only [List.mem_cons, List.not_mem_nil, or_false] at hmem
      rcases hmem with rfl | rfl | rfl | rfl
      · exact ⟨show ∀ c ∈ ascii "Content-Length", c ≠ 13 ∧ c ≠ 10 ∧ c ≠ 58 by decide, dec _⟩
      · exact ⟨by decide, by decide⟩
      · exact ⟨show ∀ c ∈ ascii "Cache-Control", c ≠ 13 ∧ c ≠ 10 ∧ c ≠ 58 by decide, lit _ (lit _ (lit _ (by decide) _ (dec _)) _ (by decide)) _ (dec _)⟩
      · exact ⟨by decide, by decide⟩
    · intro v
      simp only [List.mem_cons, Prod.mk.injEq, true_and, List.not_mem_nil, or_false]
      constructor
      · rintro (h | ⟨h, _⟩ | ⟨h, _⟩ | ⟨h, _⟩)
        · exact h
        · exact absurd h (by decide)
        · exact absurd h (by decide)
        · exact absurd h (by decide)
      · exact Or.inl
  have hans : ∀ d : Decision, (∀ s m, d = .reject s m → s = ascii "400 Bad Request" ∨ s = ascii "404 Not Found") →
      answer resolve d = .done asked out → ∃ status headers body len, HttpResponse out status headers body ∧
      (∀ v, (ascii "Content-Length", v) ∈ headers ↔ v = len) ∧ IsDecimal body.length len ∧
      ((∃ name ty ttl maxAge, asked = [(name, ty)] ∧ resolve name ty = some (body, ttl) ∧ status = ascii "200 OK" ∧
          IsDecimal ttl.toNat maxAge ∧ (ascii "Cache-Control", ascii "public, max-age=" ++ maxAge ++ ascii ", s-maxage=" ++ maxAge) ∈ headers) ∨
       ((status = ascii "400 Bad Request" ∨ status = ascii "404 Not Found") ∧
          (asked = [] ∨ ∃ name ty, asked = [(name, ty)] ∧ resolve name ty = none))) := by
    intro d hd ha
    cases d with
    | reject s m =>
      simp only [answer, Served.done.injEq] at ha
      obtain ⟨rfl, rfl⟩ := ha
      obtain ⟨hs, l, h1, h2, h3⟩ := err s m (hd s m rfl)
      exact ⟨s, hs, m, l, h1, h2, h3, Or.inr ⟨hd s m rfl, Or.inl rfl⟩⟩
    | lookup n t =>
      simp only [answer] at ha
      cases hr : resolve n t with
      | none =>
        rw [hr] at ha
        simp only [Served.done.injEq] at ha
        obtain ⟨rfl, rfl⟩ := ha
        obtain ⟨hs, l, h1, h2, h3⟩ := err _ (ascii "Failed to generate proof for given domain") (Or.inr rfl)
        exact ⟨_, hs, _, l, h1, h2, h3, Or.inr ⟨Or.inr rfl, Or.inr ⟨n, t, rfl, hr⟩⟩⟩
      | some p =>
        obtain ⟨proof, ttl⟩ := p
        rw [hr] at ha
        simp only [Served.done.injEq] at ha
        obtain ⟨rfl, rfl⟩ := ha
        obtain ⟨hs, l, h1, h2, h3, h4⟩ := ok proof ttl
        exact ⟨_, hs, _, l, h1, h2, h3, Or.inl ⟨n, t, ttl, _, rfl, hr, rfl, decimal_int _, h4⟩⟩
  unfold serve at h
  split at h
  · simp only [Served.done.injEq] at h
    exact Or.inl ⟨h.2.symm, h.1.symm⟩
  · exact Or.inr (hans _ (by rintro s m e; simp only [Decision.reject.injEq] at e; exact Or.inl e.1.symm) h)
  · rename_i buf _
    split at h
    · exact nomatch h
    · rename_i d hd
      refine Or.inr (hans _ ?_ h)
      rintro s m rfl
      unfold decideBuf at hd
      have hbr : ∀ {s m}, badRequest = .reject s m → s = ascii "400 Bad Request" ∨ s = ascii "404 Not Found" := by
        intro s m e
        simp only [badRequest, Decision.reject.injEq] at e
        exact Or.inl e.1.symm
      split at hd
      · split at hd
        · rename_i req rest _
          simp only [Option.some.injEq] at hd
          rcases decideLine_reject req with ⟨n, t, e⟩ | ⟨s', m', e, hs⟩
          · rw [hd] at e; exact nomatch e
          · rw [hd] at e
            simp only [Decision.reject.injEq] at e
            rw [e.1]; exact hs
        · split at hd
          · exact nomatch hd
          · simp only [Option.some.injEq] at hd; exact hbr hd
      · simp only [Option.some.injEq] at hd; exact hbr hd

/-- A successful and a failing request, byte for byte. -/
example : serve true (fun _ _ => some ([1, 2, 3, 4, 5, 6, 7, 8, 9, 10], 60)) [.data (exLine ++ crlf)] = .done [(⟨ascii "a."⟩, 16)]
    (ascii ("HTTP/1.1 200 OK\r\nContent-Length: 10\r\nContent-Type: application/octet-stream\r\nCache-Control: public, max-age=60, " ++
      "s-maxage=60\r\nAccess-Control-Allow-Origin: *\r\n\r\n") ++ [1, 2, 3, 4, 5, 6, 7, 8, 9, 10]) ∧
    serve true (fun _ _ => none) [.data (ascii "GET / HTTP/1.1\r\n")] = .done []
      (ascii "HTTP/1.1 404 Not Found\r\nContent-Length: 9\r\nContent-Type: text/plain\r\nAccess-Control-Allow-Origin: *\r\n\r\nNot Found") := by
  decide +kernel

/-! ## C51: dispatch -/

/-- **C51.** For a request line that is within 4096 bytes and UTF-8, followed by ASCII: the resolver is asked about `name` and `ty`
exactly if the line is a request for a proof for `name` and `ty`; otherwise nothing is asked and the answer is an error (by
`C50_response`, with status 400 or 404). -/
theorem C51_dispatch_partial {evs : List SockEvent} {line rest : Bytes} (h : FirstLine (received evs) line rest) (hl : line.length + 2 ≤ 4096)
    (hu : Utf8 line) (ha : ∀ c ∈ rest, c.toNat < 128) :
    ∃ asked out, serve dbg resolve evs = .done asked out ∧ out ≠ [] ∧
      (∀ name ty, (name, ty) ∈ asked ↔ ProofRequest line name ty) ∧ (asked = [] ∨ ∃ name ty, asked = [(name, ty)]) := by
  obtain ⟨j, e⟩ := (C49_outcome dbg resolve evs).1 line rest h hl
  have v : Utf8 (rest.take j) := utf8Valid_iff.mp (utf8Valid_ascii fun c hc => ha c (List.mem_of_mem_take hc))
  rw [if_pos ⟨hu, v⟩] at e
  rcases decideLine_reject line with ⟨n, t, hd⟩ | ⟨s, m, hd, _⟩
  · rw [hd] at e
    have hask : ∃ out, answer resolve (.lookup n t) = .done [(n, t)] out ∧ out ≠ [] := by
      simp only [answer]
      cases resolve n t with
      | none => exact ⟨_, rfl, by simp [httpError, ascii]⟩
      | some p => exact ⟨_, rfl, by simp [httpProof, ascii]⟩
    obtain ⟨out, ho, hne⟩ := hask
    refine ⟨_, out, e.trans ho, hne, fun name ty => ?_, Or.inr ⟨n, t, rfl⟩⟩
    rw [List.mem_singleton, Prod.mk.injEq, ← decideLine_iff, hd, Decision.lookup.injEq]
    exact ⟨fun h => ⟨h.1.symm, h.2.symm⟩, fun h => ⟨h.1.symm, h.2.symm⟩⟩
  · rw [hd] at e
    refine ⟨_, _, e, by simp [httpError, ascii], fun name ty => ?_, Or.inl rfl⟩
    rw [← decideLine_iff, hd]
    simp

/-- **C51, exactly:** whatever the client sends and however it arrives, the resolver is asked about `name` and `ty` iff the first line is within
4096 bytes and a request for a proof for them, and that line and what arrives together with its end (within the 4096 bytes) are UTF-8. -/
theorem C51_asked_iff {evs : List SockEvent} {name : Name} {ty : UInt16} :
    (∃ asked out, serve dbg resolve evs = .done asked out ∧ (name, ty) ∈ asked) ↔
    ∃ before chunk line more, Completes evs before chunk line more ∧ line.length + 2 ≤ 4096 ∧ ProofRequest line name ty ∧ Utf8 line ∧
      Utf8 (more.take (4096 - (line.length + 2))) := by
  have hans : ∀ d, (∃ asked out, answer resolve d = .done asked out ∧ (name, ty) ∈ asked) ↔ d = .lookup name ty := by
    intro d
    cases d with
    | reject s m => simp [answer]
    | lookup n t =>
      simp only [answer, Decision.lookup.injEq]
      cases resolve n t <;> simp [eq_comm]
  have hno : badRequest ≠ .lookup name ty := nofun
  constructor
  · intro h
    by_cases hc : hasCRLF ((received evs).take 4096) = true
    · obtain ⟨line, rest, h1, h2⟩ := firstLine_exists hc
      have hf : FirstLine (received evs) line (rest ++ (received evs).drop 4096) :=
        ⟨by rw [← List.append_assoc, ← h1, List.take_append_drop], h2⟩
      have hl : line.length + 2 ≤ 4096 := by
        have := congrArg List.length h1
        simp only [List.length_take, List.length_append, crlf, List.length_cons, List.length_nil] at this
        omega
      obtain ⟨before, chunk, more, hcomp, _⟩ := C49_completed hf
      rw [C49_exactly hcomp hl, hans] at h
      by_cases hu : Utf8 line ∧ Utf8 (more.take (4096 - (line.length + 2)))
      · rw [if_pos hu] at h
        exact ⟨before, chunk, line, more, hcomp, hl, decideLine_iff.mp h, hu.1, hu.2⟩
      · rw [if_neg hu] at h
        exact absurd h hno
    · have hnl : NoLine ((received evs).take 4096) := noLine_iff.mpr (by simpa using hc)
      by_cases hl : 4096 ≤ (received evs).length
      · rw [(C49_outcome dbg resolve evs).2.1 hnl hl, hans] at h
        exact nomatch h
      · rw [(C49_outcome dbg resolve evs).2.2 (by rwa [List.take_of_length_le (by omega)] at hnl) (by omega)] at h
        obtain ⟨asked, out, e, hm⟩ := h
        simp only [Served.done.injEq] at e
        rw [← e.1] at hm
        exact nomatch hm
  · rintro ⟨before, chunk, line, more, hcomp, hl, hp, hu, hu'⟩
    rw [C49_exactly hcomp hl, hans, if_pos ⟨hu, hu'⟩]
    exact decideLine_iff.mpr hp

/-- **C51 is false** as stated: a request for a proof is refused because of a byte that arrives together with it. -/
theorem C51_fails_for_other_bytes : ProofRequest exLine ⟨ascii "a."⟩ 16 ∧ FirstLine (exLine ++ crlf ++ [0xff]) exLine [0xff] ∧
    serve dbg resolve [.data (exLine ++ crlf ++ [0xff])] = answer resolve badRequest :=
  ⟨decideLine_iff.mp (by decide +kernel), ⟨rfl, noLine_iff.mpr (by decide +kernel)⟩, C49_fails_for_other_bytes.2.2⟩

/-- **C51.** The resolver is never asked about anything else: whatever the client sends, if anything is asked then the first line the
client sent is a request for exactly that, and it is the only thing asked. -/
theorem C51_no_other_query {evs : List SockEvent} {asked : List (Name × UInt16)} {out : Bytes} (h : serve dbg resolve evs = .done asked out)
    {name : Name} {ty : UInt16} (hm : (name, ty) ∈ asked) :
    asked = [(name, ty)] ∧ ∃ line rest, FirstLine (received evs) line rest ∧ ProofRequest line name ty := by
  have hans : ∀ d, answer resolve d = .done asked out → d = .lookup name ty ∧ asked = [(name, ty)] := by
    intro d hd
    cases d with
    | reject s m =>
      simp only [answer, Served.done.injEq] at hd
      rw [← hd.1] at hm; simp at hm
    | lookup n t =>
      have : asked = [(n, t)] := by
        simp only [answer] at hd
        split at hd <;> (simp only [Served.done.injEq] at hd; exact hd.1.symm)
      rw [this, List.mem_singleton, Prod.mk.injEq] at hm
      rw [this, hm.1, hm.2]; exact ⟨rfl, rfl⟩
  by_cases hc : hasCRLF ((received evs).take 4096) = true
  · obtain ⟨line, rest, h1, h2⟩ := firstLine_exists hc
    have hf : FirstLine (received evs) line (rest ++ (received evs).drop 4096) :=
      ⟨by rw [← List.append_assoc, ← h1, List.take_append_drop], h2⟩
    have hl : line.length + 2 ≤ 4096 := by
      have := congrArg List.length h1
      simp only [List.length_take, List.length_append, crlf, List.length_cons, List.length_nil] at this
      omega
    obtain ⟨j, e⟩ := (C49_outcome dbg resolve evs).1 _ _ hf hl
    obtain ⟨hd, hask⟩ := hans _ (e.symm.trans h)
    refine ⟨hask, line, _, hf, decideLine_iff.mp ?_⟩
    split at hd
    · exact hd
    · simp [badRequest] at hd
  · have hno : NoLine ((received evs).take 4096) := noLine_iff.mpr (by simpa using hc)
    by_cases hl : 4096 ≤ (received evs).length
    · have e := (C49_outcome dbg resolve evs).2.1 hno hl
      exact nomatch (hans _ (e.symm.trans h)).1
    · have := (C49_outcome dbg resolve evs).2.2 (by rwa [List.take_of_length_le (by omega)] at hno) (by omega)
      rw [this] at h
      simp only [Served.done.injEq] at h
      rw [← h.1] at hm; simp at hm

/-- The example line is a request, also with other parameters, repeated ones, and a type in mixed case. -/
example : ProofRequest exLine ⟨ascii "a."⟩ 16 ∧
    ProofRequest (ascii "GET /dnssecproof?x=1&d=bad&t=AaAa&d=B.&y== HTTP/1.0") ⟨ascii "b."⟩ 28 :=
  ⟨decideLine_iff.mp (by decide +kernel), decideLine_iff.mp (by decide +kernel)⟩

/-- Lines that are not requests for a proof. -/
example (n : Name) (ty : UInt16) : ¬ ProofRequest (ascii "POST /dnssecproof?d=a.&t=txt HTTP/1.1") n ty ∧
    ¬ ProofRequest (ascii "GET /dnssecproof?d=a&t=txt HTTP/1.1") n ty ∧ ¬ ProofRequest (ascii "GET /dnssecproof?d=a.&t=mx HTTP/1.1") n ty ∧
    ¬ ProofRequest (ascii "GET /dnssecproof?d=a.&t=txt&z HTTP/1.1") n ty ∧ ¬ ProofRequest (ascii "GET /dnssecproof?d=a.&t=txt HTTP/2") n ty := by
  have key : ∀ l : Bytes, (∃ s m, decideLine l = .reject s m) → ¬ ProofRequest l n ty := by
    rintro l ⟨s, m, h⟩ hp
    rw [decideLine_iff.mpr hp] at h; exact nomatch h
  exact ⟨key _ ⟨_, _, show _ = badRequest by decide +kernel⟩,
    key _ ⟨ascii "400 Bad Request", ascii "Failed to parse domain, make sure it ends with .", by decide +kernel⟩,
    key _ ⟨_, _, show _ = badRequest by decide +kernel⟩, key _ ⟨_, _, show _ = badRequest by decide +kernel⟩,
    key _ ⟨_, _, show _ = badRequest by decide +kernel⟩⟩

end Dnssec.Props
