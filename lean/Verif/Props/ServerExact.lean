import Verif.Props.Server

/-! # C50, C74: exactly which clients are not answered -/

namespace Dnssec.Props

open Dnssec Dnssec.Spec

variable {dbg : Bool} {resolve : Name → UInt16 → Option (Bytes × UInt32)}

private theorem answer_ne (d : Decision) (asked : List (Name × UInt16)) : answer resolve d ≠ .done asked [] := by
  cases d with
  | reject s m => simp [answer, httpError, ascii]
  | lookup n t => cases h : resolve n t <;> simp [answer, h, httpError, httpProof, ascii]

/-- **C50, exactly:** nothing is written to a client iff it stops sending (or its connection fails) before it has sent a line break and before it has sent 4096
bytes. -/
theorem C50_silent_iff {evs : List SockEvent} : (∃ asked, Dnssec.serve dbg resolve evs = .done asked []) ↔
    NoLine (received evs) ∧ (received evs).length < 4096 := by
  constructor
  · rintro ⟨asked, h⟩
    by_cases hc : hasCRLF ((received evs).take 4096) = true
    · obtain ⟨line, rest, h1, h2⟩ := firstLine_exists hc
      have hf : FirstLine (received evs) line (rest ++ (received evs).drop 4096) :=
        ⟨by rw [← List.append_assoc, ← h1, List.take_append_drop], h2⟩
      have hl : line.length + 2 ≤ 4096 := by
        have := congrArg List.length h1
        simp only [List.length_take, List.length_append, crlf, List.length_cons, List.length_nil] at this
        omega
      obtain ⟨j, e⟩ := (C49_outcome dbg resolve evs).1 _ _ hf hl
      exact absurd (e.symm.trans h) (answer_ne _ _)
    · have hnl : NoLine ((received evs).take 4096) := noLine_iff.mpr (by simpa using hc)
      by_cases hl : 4096 ≤ (received evs).length
      · exact absurd (((C49_outcome dbg resolve evs).2.1 hnl hl).symm.trans h) (answer_ne _ _)
      · exact ⟨by rwa [List.take_of_length_le (by omega)] at hnl, by omega⟩
  · rintro ⟨h1, h2⟩
    exact ⟨[], (C49_outcome dbg resolve evs).2.2 h1 h2⟩

/-- **C74, exactly,** for everything a client can send and every segmentation: its task panics iff the client asks for a proof (as in `C51_asked_iff`) and the
resolver answers the queries for it with a response that panics. -/
theorem C74_panics_exactly_partial (conn : Option Stream) (evs : List SockEvent) : serveTcp dbg conn evs = .panicked ↔
    ∃ before chunk line more name ty s s', Completes evs before chunk line more ∧ line.length + 2 ≤ 4096 ∧ ProofRequest line name ty ∧ Utf8 line ∧
      Utf8 (more.take (4096 - (line.length + 2))) ∧ conn = some s ∧ buildProof dbg 10 s name ty = some (s', .panic) := by
  constructor
  · intro hp
    rcases serveTcp_eq (dbg := dbg) conn evs with ⟨e, _⟩ | ⟨_, n, t, out, e, hl⟩
    · exact absurd (e.symm.trans hp) (C49_no_panic evs)
    · obtain ⟨before, chunk, line, more, h1, h2, h3, h4, h5⟩ :=
        (C51_asked_iff (dbg := dbg) (resolve := tcpResolver dbg conn) (name := n) (ty := t)).mp ⟨_, _, e, List.mem_singleton.mpr rfl⟩
      obtain ⟨s, e1, s', e2⟩ := lookupTcp_panic.mp hl
      exact ⟨before, chunk, line, more, n, t, s, s', h1, h2, h3, h4, h5, e1, e2⟩
  · rintro ⟨before, chunk, line, more, n, t, s, s', h1, h2, h3, h4, h5, e1, e2⟩
    rcases serveTcp_eq (dbg := dbg) conn evs with ⟨_, hno⟩ | ⟨e, _⟩
    · obtain ⟨asked, out, e, hm⟩ := (C51_asked_iff (dbg := dbg) (resolve := tcpResolver dbg conn)).mpr ⟨before, chunk, line, more, h1, h2, h3, h4, h5⟩
      obtain ⟨rfl, _⟩ := C51_no_other_query e hm
      exact absurd (lookupTcp_panic.mpr ⟨s, e1, s', e2⟩) (hno n t out e)
    · exact e

/-- **C74, exactly:** with every resolver, a client receives nothing iff it stops before it has sent a line break and 4096 bytes, or its task panics. -/
theorem C74_answered_iff_partial (conn : Option Stream) (evs : List SockEvent) :
    (∃ asked out, serveTcp dbg conn evs = .done asked out ∧ out ≠ []) ↔
    ¬ (NoLine (received evs) ∧ (received evs).length < 4096) ∧ serveTcp dbg conn evs ≠ .panicked := by
  constructor
  · rintro ⟨asked, out, h, hne⟩
    refine ⟨fun hno => ?_, fun hp => nomatch h.symm.trans hp⟩
    rcases serveTcp_eq (dbg := dbg) conn evs with ⟨e, _⟩ | ⟨e, _⟩
    · have := (C49_outcome dbg (tcpResolver dbg conn) evs).2.2 hno.1 hno.2
      rw [e, this] at h
      simp only [Served.done.injEq] at h
      exact hne h.2.symm
    · exact nomatch h.symm.trans e
  · rintro ⟨hno, hp⟩
    rcases serveTcp_eq (dbg := dbg) conn evs with ⟨e, _⟩ | ⟨e, _⟩
    · cases h : Dnssec.serve dbg (tcpResolver dbg conn) evs with
      | panicked => exact absurd (e.trans h) hp
      | done asked out =>
        refine ⟨asked, out, e.trans h, ?_⟩
        rintro rfl
        exact hno (C50_silent_iff.mp ⟨asked, h⟩)
    · exact absurd e hp

/-- All cases occur: no line, a request that is answered (the connection to the resolver fails), and one that panics, with bytes after the line that are not
ASCII. -/
example (dbg : Bool) : (NoLine (received [.data (ascii "GET /"), .wouldBlock]) ∧ (received [.data (ascii "GET /"), .wouldBlock]).length < 4096) ∧
    ¬ (NoLine (received [.data (exLine ++ crlf ++ [0xc3, 0xa9])]) ∧ (received [.data (exLine ++ crlf ++ [0xc3, 0xa9])]).length < 4096) ∧
    serveTcp dbg none [.data (exLine ++ crlf ++ [0xc3, 0xa9])] ≠ .panicked ∧
    serveTcp dbg (some ⟨frame panickingResponse, 2, []⟩) [.data (exLine ++ crlf ++ [0xc3, 0xa9])] = .panicked := by
  refine ⟨⟨noLine_iff.mpr (by decide +kernel), by decide +kernel⟩, ?_, by cases dbg <;> decide +kernel, ?_⟩
  · rintro ⟨h, _⟩
    exact absurd (noLine_iff.mp h) (by decide +kernel)
  · rw [C74_panics_exactly_partial]
    have hn : Obtainable ⟨ascii "a."⟩ := ⟨ascii "a.", by decide⟩
    obtain ⟨s', hs⟩ := (C73_driver_panics_iff_partial (dbg := dbg) (ty := 16) hn (s := ⟨frame panickingResponse, 2, []⟩)).mpr
      ⟨[], _, _, panickingResponse, [], .new, by decide, panickingResponse_panics dbg, by simp, by simp, by decide +kernel⟩
    refine ⟨[], exLine ++ crlf ++ [0xc3, 0xa9], exLine, [0xc3, 0xa9], ⟨ascii "a."⟩, 16, _, s', ?_, by decide +kernel,
      decideLine_iff.mp (by decide +kernel), utf8Valid_iff.mp (by decide +kernel), utf8Valid_iff.mp (by decide +kernel), rfl, hs⟩
    exact ⟨⟨[], rfl⟩, by simp, by decide +kernel, by decide +kernel, noLine_iff.mpr (by decide +kernel)⟩

end Dnssec.Props
