import Verif.Spec.Http
import Verif.Proofs.Json
import Verif.Proofs.Name

/-! # Proofs about the HTTP server -/

namespace Dnssec

open Spec

/-! ### Lines -/

theorem hasCRLF_iff : ∀ {bs : Bytes}, hasCRLF bs = true ↔ ∃ a b, bs = a ++ crlf ++ b
  | [] => by simp [hasCRLF, crlf]
  | [x] => by
    simp only [hasCRLF, Bool.false_eq_true, crlf, false_iff, not_exists]
    intro a b h
    have := congrArg List.length h
    simp at this; omega
  | x :: y :: rest => by
    rw [hasCRLF, Bool.or_eq_true, hasCRLF_iff]
    constructor
    · rintro (h | ⟨a, b, h⟩)
      · simp only [Bool.and_eq_true, beq_iff_eq] at h
        exact ⟨[], rest, by simp [crlf, h.1, h.2]⟩
      · exact ⟨x :: a, b, by rw [h]; simp⟩
    · rintro ⟨a, b, h⟩
      cases a with
      | nil =>
        simp only [crlf, List.nil_append, List.cons_append, List.cons.injEq] at h
        left; simp [h.1, h.2.1]
      | cons z a =>
        simp only [List.cons_append, List.cons.injEq] at h
        exact Or.inr ⟨a, b, by rw [h.2, List.append_assoc]⟩

theorem noLine_iff {bs : Bytes} : NoLine bs ↔ hasCRLF bs = false := by
  constructor
  · intro h
    cases e : hasCRLF bs with
    | false => rfl
    | true =>
      obtain ⟨a, b, h'⟩ := hasCRLF_iff.mp e
      exact absurd h' (h a b)
  · intro h a b e
    rw [hasCRLF_iff.mpr ⟨a, b, e⟩] at h
    exact nomatch h

theorem NoLine.left {a b : Bytes} (h : NoLine (a ++ b)) : NoLine a := fun x y e => h x (y ++ b) (by rw [e]; simp)
theorem NoLine.right {a b : Bytes} (h : NoLine (a ++ b)) : NoLine b := fun x y e => h (a ++ x) y (by rw [e]; simp)

theorem splitOnceCRLF_line : ∀ {line : Bytes} (rest : Bytes), NoLine (line ++ [13]) → splitOnceCRLF (line ++ crlf ++ rest) = some (line, rest)
  | [], rest, _ => by simp [splitOnceCRLF, crlf]
  | [x], rest, h => by
    have hx : ¬ (x = 13 ∧ (13 : UInt8) = 10) := fun h => absurd h.2 (by decide)
    simp only [crlf, List.cons_append, List.nil_append, splitOnceCRLF]
    rw [if_neg hx]
    simp
  | x :: y :: line, rest, h => by
    have hx : ¬ (x = 13 ∧ y = 10) := by
      rintro ⟨rfl, rfl⟩
      exact h [] (line ++ [13]) (by simp [crlf])
    have ih := splitOnceCRLF_line (line := y :: line) rest (NoLine.right (a := [x]) h)
    simp only [List.cons_append] at ih ⊢
    rw [splitOnceCRLF, if_neg hx, ih]

/-- Every text with a line break has a first line. -/
theorem firstLine_exists : ∀ {bs : Bytes}, hasCRLF bs = true → ∃ line rest, FirstLine bs line rest
  | [], h => by simp [hasCRLF] at h
  | [x], h => by simp [hasCRLF] at h
  | x :: y :: bs, h => by
    by_cases hx : x = 13 ∧ y = 10
    · refine ⟨[], bs, by simp [crlf, hx.1, hx.2], ?_⟩
      intro a b e
      have := congrArg List.length e
      simp [crlf] at this; omega
    · have h' : hasCRLF (y :: bs) = true := by
        rw [hasCRLF, Bool.or_eq_true] at h
        rcases h with h | h
        · simp only [Bool.and_eq_true, beq_iff_eq] at h
          exact absurd h hx
        · exact h
      obtain ⟨line, rest, h1, h2⟩ := firstLine_exists h'
      refine ⟨x :: line, rest, by rw [h1]; simp, ?_⟩
      intro a b e
      cases a with
      | nil =>
        simp only [crlf, List.cons_append, List.nil_append, List.cons.injEq] at e
        obtain ⟨rfl, e⟩ := e
        cases line with
        | nil => simp at e
        | cons z line =>
          simp only [List.cons_append, List.cons.injEq] at h1 e
          exact hx ⟨rfl, h1.1.trans e.1⟩
      | cons z a =>
        simp only [List.cons_append, List.cons.injEq] at e
        exact h2 a b e.2

/-- A prefix of a text has a line break iff it reaches beyond the first one. -/
theorem firstLine_prefix {bs line rest p : Bytes} (h : FirstLine bs line rest) (hp : p <+: bs) :
    (line.length + 2 ≤ p.length → ∃ j, p = line ++ crlf ++ rest.take j) ∧ (p.length < line.length + 2 → NoLine p) := by
  obtain ⟨h1, h2⟩ := h
  subst h1
  have hpe : p = (line ++ crlf ++ rest).take p.length := List.prefix_iff_eq_take.mp hp
  constructor
  · intro hl
    refine ⟨p.length - (line.length + 2), ?_⟩
    have e1 : (line ++ crlf).length = line.length + 2 := by simp [crlf]
    calc p = (line ++ crlf ++ rest).take p.length := hpe
      _ = _ := by rw [List.take_append, List.take_of_length_le (by rw [e1]; exact hl), e1]
  · intro hl
    have hpre : p <+: line ++ [13] := by
      rw [hpe]
      have : (line ++ crlf ++ rest) = (line ++ [13]) ++ ([10] ++ rest) := by simp [crlf]
      rw [this, List.take_append_of_le_length (by simp; omega)]
      exact List.take_prefix _ _
    obtain ⟨s, hs⟩ := hpre
    have : NoLine (p ++ s) := by rw [hs]; exact h2
    exact NoLine.left this

/-! ### Reading -/

/-- Reading, in terms of the bytes received so far (`buf`) and to come. -/
theorem readRequest_spec (evs : List SockEvent) : ∀ (buf : Bytes), buf.length ≤ httpBufSize → NoLine buf →
    match readRequest buf evs with
    | .closed => (buf ++ received evs).length < httpBufSize ∧ NoLine (buf ++ received evs)
    | .tooLarge => httpBufSize ≤ (buf ++ received evs).length ∧ NoLine ((buf ++ received evs).take httpBufSize)
    | .request b => b <+: buf ++ received evs ∧ b.length ≤ httpBufSize ∧ hasCRLF b = true := by
  induction evs with
  | nil =>
    intro buf hl hn
    by_cases hb : buf.length = httpBufSize
    · rw [readRequest, if_pos hb]
      simp only [received, List.append_nil]
      exact ⟨by omega, by rw [List.take_of_length_le (by omega)]; exact hn⟩
    · rw [readRequest, if_neg hb]
      simp only [received, List.append_nil]
      exact ⟨by omega, hn⟩
  | cons ev evs ih =>
    intro buf hl hn
    by_cases hb : buf.length = httpBufSize
    · rw [readRequest.eq_def, if_pos hb]
      simp only
      exact ⟨by simp only [List.length_append]; omega, by rw [List.take_append_of_le_length (by omega), List.take_of_length_le (by omega)]; exact hn⟩
    · rw [readRequest.eq_def, if_neg hb]
      cases ev with
      | error =>
        simp only [received, List.append_nil]
        exact ⟨by omega, hn⟩
      | wouldBlock =>
        simp only [received]
        exact ih buf hl hn
      | data chunk =>
        simp only [received]
        by_cases hc : chunk = []
        · subst hc
          simp only [List.take_nil, List.length_nil, if_true, List.append_nil]
          exact ⟨by omega, hn⟩
        · have hpos : 0 < chunk.length := List.length_pos_iff.mpr hc
          have hne : ¬ (chunk.take (httpBufSize - buf.length)).length = 0 := by rw [List.length_take]; omega
          rw [if_neg hne, if_neg hc]
          have hlen : (buf ++ chunk.take (httpBufSize - buf.length)).length ≤ httpBufSize := by
            rw [List.length_append, List.length_take]; omega
          by_cases hcr : hasCRLF (buf ++ chunk.take (httpBufSize - buf.length)) = true
          · rw [if_pos hcr]
            simp only
            refine ⟨?_, hlen, hcr⟩
            rw [← List.append_assoc]
            refine List.IsPrefix.trans ?_ (List.prefix_append _ _)
            exact (List.prefix_append_right_inj buf).mpr (List.take_prefix _ _)
          · rw [if_neg hcr]
            have hno : NoLine (buf ++ chunk.take (httpBufSize - buf.length)) := noLine_iff.mpr (by simpa using hcr)
            by_cases hfit : chunk.length ≤ httpBufSize - buf.length
            · rw [List.take_of_length_le hfit] at hlen hno ⊢
              rw [← List.append_assoc]
              exact ih _ hlen hno
            · have hfull : (buf ++ chunk.take (httpBufSize - buf.length)).length = httpBufSize := by
                rw [List.length_append, List.length_take]; omega
              have : readRequest (buf ++ chunk.take (httpBufSize - buf.length)) evs = .tooLarge := by
                rw [readRequest.eq_def, if_pos hfull]
              rw [this]
              simp only
              constructor
              · simp only [List.length_append]; omega
              · have e : (buf ++ (chunk ++ received evs)).take httpBufSize = buf ++ chunk.take (httpBufSize - buf.length) := by
                  rw [List.take_append, List.take_of_length_le hl, List.take_append_of_le_length (by omega)]
                rw [e]
                exact hno

theorem readRequest_completes (after : List SockEvent) (chunk line more : Bytes) (hl : line.length + 2 ≤ httpBufSize) :
    ∀ (before : List SockEvent) (buf : Bytes), (∀ e ∈ before, e ≠ .error ∧ e ≠ .data []) →
      (buf ++ received before).length < line.length + 2 → FirstLine (buf ++ received before ++ chunk) line more →
      readRequest buf (before ++ .data chunk :: after) = .request ((buf ++ received before ++ chunk).take httpBufSize) := by
  intro before
  induction before with
  | nil =>
    intro buf _ hlen hf
    simp only [received, List.append_nil] at hlen hf ⊢
    have hne : buf.length ≠ httpBufSize := by omega
    have hge : line.length + 2 ≤ (buf ++ chunk).length := by rw [hf.1]; simp [crlf]
    simp only [List.length_append] at hge
    rw [List.nil_append, readRequest.eq_def, if_neg hne]
    simp only
    have e : (buf ++ chunk).take httpBufSize = buf ++ chunk.take (httpBufSize - buf.length) := by
      rw [List.take_append, List.take_of_length_le (by omega)]
    have hp := firstLine_prefix hf (List.take_prefix httpBufSize (buf ++ chunk))
    have hcr : hasCRLF ((buf ++ chunk).take httpBufSize) = true := by
      obtain ⟨j, hj⟩ := hp.1 (by rw [List.length_take, List.length_append]; omega)
      rw [hj]
      exact hasCRLF_iff.mpr ⟨line, _, rfl⟩
    rw [← e, if_neg (by rw [List.length_take]; omega), if_pos hcr]
  | cons ev before ih =>
    intro buf ho hlen hf
    have ho' : ∀ e ∈ before, e ≠ .error ∧ e ≠ .data [] := fun e he => ho e (List.mem_cons_of_mem _ he)
    have hev := ho ev (List.mem_cons_self ..)
    have hlen0 : buf.length < line.length + 2 := by
      simp only [List.length_append] at hlen; omega
    have hne : buf.length ≠ httpBufSize := by omega
    rw [List.cons_append, readRequest.eq_def, if_neg hne]
    cases ev with
    | error => exact absurd rfl hev.1
    | wouldBlock =>
      simp only [received] at hlen hf ⊢
      exact ih buf ho' hlen hf
    | data c =>
      have hc : c ≠ [] := fun e => hev.2 (by rw [e])
      simp only [received, if_neg hc] at hlen hf ⊢
      simp only [List.length_append] at hlen
      have hpos : 0 < c.length := List.length_pos_iff.mpr hc
      have et : c.take (httpBufSize - buf.length) = c := List.take_of_length_le (by omega)
      have hpre : buf ++ c <+: buf ++ (c ++ received before) ++ chunk := ⟨received before ++ chunk, by simp⟩
      have hno : hasCRLF (buf ++ c) = false := noLine_iff.mp ((firstLine_prefix hf hpre).2 (by rw [List.length_append]; omega))
      rw [et, if_neg (by omega), hno, if_neg (by simp)]
      have := ih (buf ++ c) ho' (by simp only [List.length_append]; omega) (by simpa using hf)
      rw [this]
      simp

/-- If the client sends a line, some read completes it. -/
theorem completes_exists {line : Bytes} : ∀ {evs : List SockEvent} (buf rest : Bytes), FirstLine (buf ++ received evs) line rest →
    buf.length < line.length + 2 → ∃ before chunk more after, evs = before ++ .data chunk :: after ∧ (∀ e ∈ before, e ≠ .error ∧ e ≠ .data []) ∧
      (buf ++ received before).length < line.length + 2 ∧ FirstLine (buf ++ received before ++ chunk) line more ∧ more <+: rest
  | [], buf, rest, hf, hb => by
    have := congrArg List.length hf.1
    simp only [received, List.append_nil, List.length_append, crlf, List.length_cons, List.length_nil] at this
    omega
  | .error :: _, buf, rest, hf, hb => by
    have := congrArg List.length hf.1
    simp only [received, List.append_nil, List.length_append, crlf, List.length_cons, List.length_nil] at this
    omega
  | .wouldBlock :: evs, buf, rest, hf, hb => by
    obtain ⟨before, chunk, more, after, rfl, ho, hlt, hc, hm⟩ := completes_exists (evs := evs) buf rest hf hb
    refine ⟨.wouldBlock :: before, chunk, more, after, rfl, ?_, hlt, hc, hm⟩
    intro e he
    rcases List.mem_cons.mp he with rfl | he
    · exact ⟨nofun, nofun⟩
    · exact ho e he
  | .data c :: evs, buf, rest, hf, hb => by
    simp only [received] at hf
    by_cases hc : c = []
    · rw [if_pos hc] at hf
      have := congrArg List.length hf.1
      simp only [List.append_nil, List.length_append, crlf, List.length_cons, List.length_nil] at this
      omega
    · rw [if_neg hc, ← List.append_assoc] at hf
      by_cases hlt : (buf ++ c).length < line.length + 2
      · obtain ⟨before, chunk, more, after, rfl, ho, h1, h2, h3⟩ := completes_exists (evs := evs) (buf ++ c) rest hf hlt
        refine ⟨.data c :: before, chunk, more, after, rfl, ?_, ?_, ?_, h3⟩
        · intro e he
          rcases List.mem_cons.mp he with rfl | he
          · exact ⟨nofun, fun e => hc (by injection e)⟩
          · exact ho e he
        · simpa [received, hc] using h1
        · simpa [received, hc] using h2
      · obtain ⟨j, hj⟩ := (firstLine_prefix hf (List.prefix_append _ _)).1 (by omega)
        exact ⟨[], c, rest.take j, evs, rfl, nofun, by simpa [received] using hb, ⟨by simpa [received] using hj, hf.2⟩, List.take_prefix _ _⟩

/-! ### UTF-8 of the buffer -/

theorem utf8Valid_append_iff {a b : Bytes} (ha : utf8Valid a = true) : utf8Valid (a ++ b) = utf8Valid b := by
  unfold utf8Valid at *
  cases hd : utf8Decode a with
  | none => rw [hd] at ha; simp at ha
  | some cs => rw [utf8Decode_append hd]; cases utf8Decode b <;> rfl

theorem utf8Decode_stuck {a : Bytes} : utf8Decode a = none → ∀ {c : UInt8}, c < 0x80 → ∀ b, utf8Decode (a ++ c :: b) = none := by
  have notCont : ∀ {c : UInt8}, c < 0x80 → utf8Cont c = false := by
    intro c hc
    simp only [utf8Cont, Bool.and_eq_false_iff, decide_eq_false_iff_not]
    left
    rw [UInt8.le_iff_toNat_le]
    have := UInt8.lt_iff_toNat_lt.mp hc
    have e : (0x80 : UInt8).toNat = 128 := rfl
    omega
  fun_induction utf8Decode a with
  | case1 => simp
  | case2 b0 rest h0 ih =>
    intro h c hc b
    rw [Option.map_eq_none_iff] at h
    rw [List.cons_append, utf8Decode_cons h0, ih h hc, Option.map_none]
  | case3 b0 h0 h1 b1 r hcont ih =>
    intro h c hc b
    rw [Option.map_eq_none_iff] at h
    simp only [List.cons_append]
    rw [utf8Decode.eq_def]
    simp only
    rw [if_neg h0, if_pos h1, if_pos hcont, ih h hc, Option.map_none]
  | case4 b0 h0 h1 b1 r hcont =>
    intro h c hc b
    simp only [List.cons_append]
    rw [utf8Decode.eq_def]
    simp only
    rw [if_neg h0, if_pos h1, if_neg hcont]
  | case5 b0 rest h0 h1 hr =>
    intro _ c hc b
    cases rest with
    | cons x xs => exact (hr x xs rfl).elim
    | nil =>
      simp only [List.cons_append, List.nil_append]
      rw [utf8Decode.eq_def]
      simp only
      rw [if_neg h0, if_pos h1, if_neg (by rw [notCont hc]; decide)]
  | case6 b0 h0 h1 h2 b1 b2 r hcont ih =>
    intro h c hc b
    rw [Option.map_eq_none_iff] at h
    simp only [List.cons_append]
    rw [utf8Decode.eq_def]
    simp only
    rw [if_neg h0, if_neg h1, if_pos h2, if_pos hcont, ih h hc, Option.map_none]
  | case7 b0 h0 h1 h2 b1 b2 r hcont =>
    intro h c hc b
    simp only [List.cons_append]
    rw [utf8Decode.eq_def]
    simp only
    rw [if_neg h0, if_neg h1, if_pos h2, if_neg hcont]
  | case8 b0 rest h0 h1 h2 hr =>
    intro _ c hc b
    match rest, hr with
    | [], _ =>
      simp only [List.cons_append, List.nil_append]
      rw [utf8Decode.eq_def]
      simp only
      rw [if_neg h0, if_neg h1, if_pos h2]
      cases b with
      | nil => rfl
      | cons y ys => simp only; rw [if_neg (by rw [notCont hc]; simp)]
    | [x], _ =>
      simp only [List.cons_append, List.nil_append]
      rw [utf8Decode.eq_def]
      simp only
      rw [if_neg h0, if_neg h1, if_pos h2, if_neg (by rw [notCont hc]; simp)]
    | x :: y :: r, hr => exact (hr x y r rfl).elim
  | case9 b0 h0 h1 h2 h3 b1 b2 b3 r hcont ih =>
    intro h c hc b
    rw [Option.map_eq_none_iff] at h
    simp only [List.cons_append]
    rw [utf8Decode.eq_def]
    simp only
    rw [if_neg h0, if_neg h1, if_neg h2, if_pos h3, if_pos hcont, ih h hc, Option.map_none]
  | case10 b0 h0 h1 h2 h3 b1 b2 b3 r hcont =>
    intro h c hc b
    simp only [List.cons_append]
    rw [utf8Decode.eq_def]
    simp only
    rw [if_neg h0, if_neg h1, if_neg h2, if_pos h3, if_neg hcont]
  | case11 b0 rest h0 h1 h2 h3 hr =>
    intro _ c hc b
    have nc := notCont hc
    match rest, hr with
    | [], _ =>
      simp only [List.cons_append, List.nil_append]
      rw [utf8Decode.eq_def]
      simp only
      rw [if_neg h0, if_neg h1, if_neg h2, if_pos h3]
      match b with
      | [] => rfl
      | [y] => rfl
      | y :: z :: ys => simp only; rw [if_neg (by rw [nc]; simp)]
    | [x], _ =>
      simp only [List.cons_append, List.nil_append]
      rw [utf8Decode.eq_def]
      simp only
      rw [if_neg h0, if_neg h1, if_neg h2, if_pos h3]
      match b with
      | [] => rfl
      | y :: ys => simp only; rw [if_neg (by rw [nc]; simp)]
    | [x, y], _ =>
      simp only [List.cons_append, List.nil_append]
      rw [utf8Decode.eq_def]
      simp only
      rw [if_neg h0, if_neg h1, if_neg h2, if_pos h3, if_neg (by rw [nc]; simp)]
    | x :: y :: z :: r, hr => exact (hr x y z r rfl).elim
  | case12 b0 rest h0 h1 h2 h3 =>
    intro _ c hc b
    rw [List.cons_append, utf8Decode.eq_def]
    simp only
    rw [if_neg h0, if_neg h1, if_neg h2, if_neg h3]

/-- Text is cut at an ASCII character without harm. -/
theorem utf8Valid_line {line rest : Bytes} : utf8Valid (line ++ crlf ++ rest) = (utf8Valid line && utf8Valid rest) := by
  rw [List.append_assoc]
  by_cases h : utf8Valid line = true
  · rw [utf8Valid_append_iff h, h, Bool.true_and, utf8Valid_append_iff (utf8Valid_ascii (by decide))]
  · rw [Bool.not_eq_true] at h
    rw [h, Bool.false_and]
    unfold utf8Valid at h ⊢
    rw [Option.isSome_eq_false_iff, Option.isNone_iff_eq_none] at h
    rw [show crlf ++ rest = 13 :: (10 :: rest) from rfl, utf8Decode_stuck h (by decide)]
    rfl

theorem decideBuf_line {dbg : Bool} {line rest : Bytes} (h : NoLine (line ++ [13])) :
    decideBuf dbg (line ++ crlf ++ rest) = some (if utf8Valid line ∧ utf8Valid rest then decideLine line else badRequest) := by
  rw [decideBuf, utf8Valid_line, splitOnceCRLF_line rest h]
  by_cases h1 : utf8Valid line = true <;> by_cases h2 : utf8Valid rest = true <;> simp [h1, h2]

/-! ### Splitting -/

theorem splitOn_ne_nil (sep : UInt8) : ∀ s : Bytes, splitOn sep s ≠ []
  | [] => by simp [splitOn]
  | c :: cs => by
    rw [splitOn]
    split
    · simp
    · split <;> simp

theorem splitOn_plain {sep : UInt8} : ∀ {s : Bytes}, sep ∉ s → splitOn sep s = [s]
  | [], _ => rfl
  | c :: cs, h => by
    simp only [List.mem_cons, not_or] at h
    rw [splitOn, if_neg (fun e => h.1 e.symm), splitOn_plain h.2]

theorem splitOn_sep {sep : UInt8} : ∀ {s : Bytes} (rest : Bytes), sep ∉ s → splitOn sep (s ++ sep :: rest) = s :: splitOn sep rest
  | [], rest, _ => by rw [List.nil_append, splitOn, if_pos rfl]
  | c :: cs, rest, h => by
    simp only [List.mem_cons, not_or] at h
    rw [List.cons_append, splitOn, if_neg (fun e => h.1 e.symm), splitOn_sep rest h.2]

/-- The pieces joined again. -/
def joinWith (sep : UInt8) : List Bytes → Bytes
  | [] => []
  | [p] => p
  | p :: ps => p ++ sep :: joinWith sep ps

theorem joinWith_splitOn (sep : UInt8) : ∀ s : Bytes, joinWith sep (splitOn sep s) = s
  | [] => rfl
  | c :: cs => by
    have ih := joinWith_splitOn sep cs
    rw [splitOn]
    split
    · rename_i h
      cases hs : splitOn sep cs with
      | nil => exact absurd hs (splitOn_ne_nil _ _)
      | cons p ps => rw [joinWith, ← hs, ih, h]; rfl; simp
    · cases hs : splitOn sep cs with
      | nil => exact absurd hs (splitOn_ne_nil _ _)
      | cons p ps =>
        rw [hs] at ih
        cases ps with
        | nil => simp only [joinWith] at ih ⊢; rw [ih]
        | cons q qs =>
          rw [joinWith] at ih ⊢
          · rw [List.cons_append, ih]
          · simp
          · simp

theorem splitOn_no_sep (sep : UInt8) : ∀ s : Bytes, ∀ p ∈ splitOn sep s, sep ∉ p
  | [], p, hp => by simp [splitOn] at hp; subst hp; simp
  | c :: cs, p, hp => by
    have ih := splitOn_no_sep sep cs
    rw [splitOn] at hp
    split at hp
    · rcases List.mem_cons.mp hp with rfl | hp
      · simp
      · exact ih p hp
    · rename_i hc
      cases hs : splitOn sep cs with
      | nil => exact absurd hs (splitOn_ne_nil _ _)
      | cons q qs =>
        rw [hs] at hp ih
        rcases List.mem_cons.mp hp with rfl | hp
        · intro hm
          rcases List.mem_cons.mp hm with e | hm
          · exact hc e.symm
          · exact ih q (by simp) hm
        · exact ih p (by simp [hp])

theorem splitOnce_some {sep : UInt8} : ∀ {s x y : Bytes}, splitOnce sep s = some (x, y) ↔ s = x ++ sep :: y ∧ sep ∉ x
  | [], x, y => by simp [splitOnce]
  | c :: cs, x, y => by
    rw [splitOnce]
    by_cases hc : c = sep
    · rw [if_pos hc]
      simp only [Option.some.injEq, Prod.mk.injEq]
      constructor
      · rintro ⟨rfl, rfl⟩
        exact ⟨by rw [hc]; rfl, by simp⟩
      · rintro ⟨h1, h2⟩
        cases x with
        | nil => simp only [List.nil_append, List.cons.injEq] at h1; exact ⟨rfl, h1.2⟩
        | cons z x =>
          simp only [List.cons_append, List.cons.injEq] at h1
          exact absurd (by simp [← h1.1, hc]) h2
    · rw [if_neg hc]
      cases hs : splitOnce sep cs with
      | none =>
        simp only [reduceCtorEq, false_iff, not_and]
        intro h1 h2
        cases x with
        | nil => simp only [List.nil_append, List.cons.injEq] at h1; exact hc h1.1
        | cons z x =>
          simp only [List.cons_append, List.cons.injEq] at h1
          have := (splitOnce_some (sep := sep) (s := cs) (x := x) (y := y)).mpr ⟨h1.2, fun h => h2 (by simp [h])⟩
          rw [hs] at this; exact nomatch this
      | some p =>
        obtain ⟨a, b⟩ := p
        have ih := (splitOnce_some (sep := sep) (s := cs) (x := a) (y := b)).mp hs
        simp only [Option.some.injEq, Prod.mk.injEq]
        constructor
        · rintro ⟨rfl, rfl⟩
          refine ⟨by rw [ih.1]; rfl, ?_⟩
          intro h
          rcases List.mem_cons.mp h with e | h
          · exact hc e.symm
          · exact ih.2 h
        · rintro ⟨h1, h2⟩
          cases x with
          | nil => simp only [List.nil_append, List.cons.injEq] at h1; exact absurd h1.1 hc
          | cons z x =>
            simp only [List.cons_append, List.cons.injEq] at h1
            have := (splitOnce_some (sep := sep) (s := cs) (x := x) (y := y)).mpr ⟨h1.2, fun h => h2 (by simp [h])⟩
            rw [hs] at this
            simp only [Option.some.injEq, Prod.mk.injEq] at this
            exact ⟨by rw [h1.1, this.1], this.2⟩

/-! ### Types -/

theorem case_bytes (a b : UInt8) : upperByte a = upperByte b ↔ lowerByte a = lowerByte b := by
  have h1 : ∀ c : Fin 256, lowerByte (upperByte (UInt8.ofNat c.val)) = lowerByte (UInt8.ofNat c.val) := by decide +kernel
  have h2 : ∀ c : Fin 256, upperByte (lowerByte (UInt8.ofNat c.val)) = upperByte (UInt8.ofNat c.val) := by decide +kernel
  have e : ∀ c : UInt8, UInt8.ofNat (⟨c.toNat, c.toNat_lt⟩ : Fin 256).val = c := fun c => by simp
  have h1' : ∀ c, lowerByte (upperByte c) = lowerByte c := fun c => by have := h1 ⟨c.toNat, c.toNat_lt⟩; rwa [e] at this
  have h2' : ∀ c, upperByte (lowerByte c) = upperByte c := fun c => by have := h2 ⟨c.toNat, c.toNat_lt⟩; rwa [e] at this
  constructor
  · intro h; rw [← h1' a, h, h1']
  · intro h; rw [← h2' a, h, h2']

theorem upper_eq_iff : ∀ {a b : Bytes}, upper a = upper b ↔ lower a = lower b
  | [], [] => by simp [upper, lower]
  | [], b :: bs => by simp [upper, lower]
  | a :: as, [] => by simp [upper, lower]
  | a :: as, b :: bs => by
    have ih := upper_eq_iff (a := as) (b := bs)
    simp only [upper, lower, List.map_cons, List.cons.injEq, case_bytes] at ih ⊢
    rw [ih]

theorem httpType_iff {t : Bytes} {ty : UInt16} : httpType t = some ty ↔ ∃ m, Spells t m ∧ (m, ty) ∈ httpTypes := by
  have key : ∀ m : Bytes, upper m = m → (upper t = m ↔ Spells t m) := fun m hm => by
    unfold Spells
    rw [← upper_eq_iff, hm]
  have k1 := key (ascii "TXT") (by decide)
  have k2 := key (ascii "TLSA") (by decide)
  have k3 := key (ascii "A") (by decide)
  have k4 := key (ascii "AAAA") (by decide)
  simp only [httpTypes, List.mem_cons, Prod.mk.injEq, List.not_mem_nil, or_false]
  unfold httpType
  constructor
  · intro h
    split at h
    · rename_i h'
      simp only [Option.some.injEq] at h
      exact ⟨_, k1.mp h', by simp [← h, txtType]⟩
    split at h
    · rename_i h'
      simp only [Option.some.injEq] at h
      exact ⟨_, k2.mp h', by simp [← h, tlsaType]⟩
    split at h
    · rename_i h'
      simp only [Option.some.injEq] at h
      exact ⟨_, k3.mp h', by simp [← h, aType]⟩
    split at h
    · rename_i h'
      simp only [Option.some.injEq] at h
      exact ⟨_, k4.mp h', by simp [← h, aaaaType]⟩
    · exact nomatch h
  · rintro ⟨m, h1, ⟨rfl, rfl⟩ | ⟨rfl, rfl⟩ | ⟨rfl, rfl⟩ | ⟨rfl, rfl⟩⟩
    · have := k1.mpr h1; rw [this]; decide
    · have := k2.mpr h1; rw [this]; decide
    · have := k3.mpr h1; rw [this]; decide
    · have := k4.mpr h1; rw [this]; decide

/-! ### Parameters -/

/-- `k=v`. -/
def paramText (p : Bytes × Bytes) : Bytes := p.1 ++ 61 :: p.2

theorem lastValue_nil (k : Bytes) : lastValue k [] = none := rfl

theorem lastValue_cons (k : Bytes) (p : Bytes × Bytes) (ps : List (Bytes × Bytes)) :
    lastValue k (p :: ps) = (lastValue k ps).or (if p.1 = k then some p.2 else none) := by
  unfold lastValue
  by_cases h : p.1 = k
  · rw [List.filter_cons_of_pos (by simp [h]), if_pos h, List.getLast?_cons]
    cases (ps.filter (fun p => p.1 == k)).getLast? <;> simp
  · rw [List.filter_cons_of_neg (by simp [h]), if_neg h]
    simp

theorem argsLoop_some : ∀ {args : List Bytes} {d0 t0 d t : Bytes}, argsLoop args (d0, t0) = some (d, t) ↔
    ∃ params, args = params.map paramText ∧ (∀ p ∈ params, 61 ∉ p.1) ∧ d = (lastValue (ascii "d") params).getD d0 ∧
      t = (lastValue (ascii "t") params).getD t0
  | [], d0, t0, d, t => by
    simp only [argsLoop, Option.some.injEq, Prod.mk.injEq]
    constructor
    · rintro ⟨rfl, rfl⟩
      exact ⟨[], rfl, by simp, rfl, rfl⟩
    · rintro ⟨params, h1, _, h2, h3⟩
      have : params = [] := by simpa using h1.symm
      subst this
      exact ⟨h2.symm, h3.symm⟩
  | arg :: args, d0, t0, d, t => by
    have hdt : ascii "d" ≠ ascii "t" := by decide
    rw [argsLoop.eq_def]
    simp only
    cases hs : splitOnce 61 arg with
    | none =>
      simp only [reduceCtorEq, false_iff, not_exists, not_and]
      intro params h1 h2
      cases params with
      | nil => simp at h1
      | cons p params =>
        simp only [List.map_cons, List.cons.injEq] at h1
        have := (splitOnce_some (sep := 61) (s := arg) (x := p.1) (y := p.2)).mpr ⟨h1.1, h2 p (by simp)⟩
        rw [hs] at this; exact nomatch this
    | some kv =>
      obtain ⟨k, v⟩ := kv
      have hkv := splitOnce_some.mp hs
      simp only
      -- the loop continues with the values after this parameter
      have step : ∀ d1 t1 : Bytes, d1 = (if k = ascii "d" then v else d0) → t1 = (if k = ascii "t" then v else t0) →
          (argsLoop args (d1, t1) = some (d, t) ↔ ∃ params, arg :: args = params.map paramText ∧ (∀ p ∈ params, 61 ∉ p.1) ∧
            d = (lastValue (ascii "d") params).getD d0 ∧ t = (lastValue (ascii "t") params).getD t0) := by
        rintro d1 t1 rfl rfl
        rw [argsLoop_some]
        constructor
        · rintro ⟨params, h1, h2, h3, h4⟩
          refine ⟨(k, v) :: params, ?_, ?_, ?_, ?_⟩
          · rw [List.map_cons, ← h1, hkv.1]; rfl
          · intro p hp
            rcases List.mem_cons.mp hp with rfl | hp
            · exact hkv.2
            · exact h2 p hp
          · rw [lastValue_cons, h3]
            cases lastValue (ascii "d") params <;> simp only [Option.getD, Option.or] <;> split <;> simp_all
          · rw [lastValue_cons, h4]
            cases lastValue (ascii "t") params <;> simp only [Option.getD, Option.or] <;> split <;> simp_all
        · rintro ⟨params, h1, h2, h3, h4⟩
          cases params with
          | nil => simp at h1
          | cons p params =>
            simp only [List.map_cons, List.cons.injEq] at h1
            have := (splitOnce_some (sep := 61) (s := arg) (x := p.1) (y := p.2)).mpr ⟨h1.1, h2 p (by simp)⟩
            rw [hs] at this
            simp only [Option.some.injEq, Prod.mk.injEq] at this
            refine ⟨params, h1.2, fun q hq => h2 q (by simp [hq]), ?_, ?_⟩
            · rw [h3, lastValue_cons, ← this.1, ← this.2]
              cases lastValue (ascii "d") params <;> simp only [Option.getD, Option.or] <;> split <;> simp_all
            · rw [h4, lastValue_cons, ← this.1, ← this.2]
              cases lastValue (ascii "t") params <;> simp only [Option.getD, Option.or] <;> split <;> simp_all
      by_cases h1 : k = ascii "d"
      · rw [if_pos h1]
        exact step v t0 (by rw [if_pos h1]) (by rw [if_neg (fun h => hdt (h1.symm.trans h))])
      · rw [if_neg h1]
        by_cases h2 : k = ascii "t"
        · rw [if_pos h2]
          exact step d0 v (by rw [if_neg h1]) (by rw [if_pos h2])
        · rw [if_neg h2]
          exact step d0 t0 (by rw [if_neg h1]) (by rw [if_neg h2])

theorem uriParams_eq : ∀ params : List (Bytes × Bytes), uriParams params = joinWith 38 (params.map paramText)
  | [] => rfl
  | [p] => by simp [uriParams, joinWith, paramText]
  | p :: q :: ps => by
    have ih := uriParams_eq (q :: ps)
    obtain ⟨k, v⟩ := p
    rw [uriParams, ih]
    · have : joinWith 38 (List.map paramText ((k, v) :: q :: ps)) = paramText (k, v) ++ 38 :: joinWith 38 (List.map paramText (q :: ps)) := by
        rw [List.map_cons, joinWith.eq_3]
        simp
      rw [this]
      simp [paramText]
    · simp

theorem splitOn_join {sep : UInt8} : ∀ {ps : List Bytes}, ps ≠ [] → (∀ p ∈ ps, sep ∉ p) → splitOn sep (joinWith sep ps) = ps
  | [], h, _ => absurd rfl h
  | [p], _, h => splitOn_plain (h p (by simp))
  | p :: q :: ps, _, h => by
    rw [joinWith.eq_3]
    · rw [splitOn_sep _ (h p (by simp)), splitOn_join (by simp) (fun p hp => h p (by simp [List.mem_cons.mp hp]))]
    · simp

theorem splitOn_eq_iff {sep : UInt8} {s : Bytes} {ps : List Bytes} : splitOn sep s = ps ↔ ps ≠ [] ∧ s = joinWith sep ps ∧ ∀ p ∈ ps, sep ∉ p := by
  constructor
  · rintro rfl
    exact ⟨splitOn_ne_nil _ _, (joinWith_splitOn _ _).symm, splitOn_no_sep sep s⟩
  · rintro ⟨h1, rfl, h2⟩
    exact splitOn_join h1 h2

/-! ### The decision -/

theorem tryFrom_nil : Name.tryFrom [] = none := by decide

theorem decidePath_lookup {path : Bytes} {name : Name} {ty : UInt16} : decidePath path = .lookup name ty ↔
    ∃ args d t, path = pathPrefix ++ args ∧ argsLoop (splitOn 38 args) ([], []) = some (d, t) ∧ Name.tryFrom d = some name ∧
      httpType t = some ty := by
  have htn : httpType [] = none := by decide
  unfold decidePath
  by_cases hp : pathPrefix <+: path
  · obtain ⟨args, rfl⟩ := hp
    rw [if_neg (by simp)]
    rw [List.drop_left]
    cases ha : argsLoop (splitOn 38 args) ([], []) with
    | none =>
      simp only [badRequest, reduceCtorEq, false_iff, not_exists, not_and]
      intro a d t h1 h2
      rw [List.append_cancel_left_eq] at h1
      subst h1
      rw [ha] at h2; exact nomatch h2
    | some dt =>
      obtain ⟨d, t⟩ := dt
      simp only
      have uniq : (∃ a d' t', pathPrefix ++ args = pathPrefix ++ a ∧ argsLoop (splitOn 38 a) ([], []) = some (d', t') ∧
          Name.tryFrom d' = some name ∧ httpType t' = some ty) ↔ (Name.tryFrom d = some name ∧ httpType t = some ty) := by
        constructor
        · rintro ⟨a, d', t', h1, h2, h3, h4⟩
          rw [List.append_cancel_left_eq] at h1
          subst h1
          rw [ha] at h2
          simp only [Option.some.injEq, Prod.mk.injEq] at h2
          rw [h2.1, h2.2]; exact ⟨h3, h4⟩
        · rintro ⟨h3, h4⟩
          exact ⟨args, d, t, rfl, ha, h3, h4⟩
      rw [uniq]
      by_cases he : d = [] ∨ t = []
      · rw [if_pos he]
        simp only [reduceCtorEq, false_iff, not_and]
        intro h3 h4
        rcases he with rfl | rfl
        · rw [tryFrom_nil] at h3; exact nomatch h3
        · rw [htn] at h4; exact nomatch h4
      · rw [if_neg he]
        cases hd : Name.tryFrom d with
        | none => simp
        | some n =>
          cases ht : httpType t with
          | none => simp [badRequest]
          | some y => simp
  · rw [if_pos hp]
    simp only [reduceCtorEq, false_iff, not_exists, not_and]
    intro a d t h1
    exact absurd ⟨a, h1.symm⟩ hp

theorem decideLine_lookup {line : Bytes} {name : Name} {ty : UInt16} : decideLine line = .lookup name ty ↔
    ∃ path vers, line = ascii "GET" ++ 32 :: (path ++ 32 :: vers) ∧ 32 ∉ path ∧ (vers = ascii "HTTP/1.1" ∨ vers = ascii "HTTP/1.0") ∧
      decidePath path = .lookup name ty := by
  unfold decideLine
  constructor
  · intro h
    split at h
    · rename_i verb path vers hs
      obtain ⟨_, h1, h2⟩ := splitOn_eq_iff.mp hs
      by_cases hv : verb = ascii "GET"
      · rw [if_neg (by simp [hv])] at h
        by_cases hw : vers ≠ ascii "HTTP/1.1" ∧ vers ≠ ascii "HTTP/1.0"
        · rw [if_pos hw] at h; simp [badRequest] at h
        · rw [if_neg hw] at h
          refine ⟨path, vers, ?_, h2 path (by simp), ?_, h⟩
          · rw [h1, hv]; rfl
          · by_cases h3 : vers = ascii "HTTP/1.1"
            · exact Or.inl h3
            · exact Or.inr (Classical.byContradiction fun h4 => hw ⟨h3, h4⟩)
      · rw [if_pos hv] at h; simp [badRequest] at h
    · simp [badRequest] at h
  · rintro ⟨path, vers, rfl, h1, h2, h3⟩
    have hs : splitOn 32 (ascii "GET" ++ 32 :: (path ++ 32 :: vers)) = [ascii "GET", path, vers] := by
      refine splitOn_eq_iff.mpr ⟨by simp, rfl, ?_⟩
      intro p hp
      simp only [List.mem_cons, List.not_mem_nil, or_false] at hp
      rcases hp with rfl | rfl | rfl
      · decide
      · exact h1
      · rcases h2 with rfl | rfl <;> decide
    rw [hs]
    simp only
    rw [if_neg (by simp), if_neg (by rcases h2 with rfl | rfl <;> simp), h3]

theorem joinWith_mem {sep c : UInt8} : ∀ {ps : List Bytes}, c ∈ joinWith sep ps → c = sep ∨ ∃ p ∈ ps, c ∈ p
  | [], h => by simp [joinWith] at h
  | [p], h => Or.inr ⟨p, by simp, h⟩
  | p :: q :: ps, h => by
    rw [joinWith.eq_3] at h
    · rw [List.mem_append, List.mem_cons] at h
      rcases h with h | h | h
      · exact Or.inr ⟨p, by simp, h⟩
      · exact Or.inl h
      · rcases joinWith_mem h with h | ⟨x, hx, h⟩
        · exact Or.inl h
        · exact Or.inr ⟨x, by simp [List.mem_cons.mp hx], h⟩
    · simp

theorem mem_joinWith {sep c : UInt8} {p : Bytes} (h : c ∈ p) : ∀ {ps : List Bytes}, p ∈ ps → c ∈ joinWith sep ps
  | [], hp => by simp at hp
  | [q], hp => by simp at hp; subst hp; exact h
  | q :: r :: ps, hp => by
    rw [joinWith.eq_3]
    · rw [List.mem_append, List.mem_cons]
      rcases List.mem_cons.mp hp with rfl | hp
      · exact Or.inl h
      · exact Or.inr (Or.inr (mem_joinWith h hp))
    · simp

theorem mem_paramText {c : UInt8} {p : Bytes × Bytes} : c ∈ paramText p ↔ c ∈ p.1 ∨ c = 61 ∨ c ∈ p.2 := by
  simp [paramText]

theorem decideLine_iff {line : Bytes} {name : Name} {ty : UInt16} : decideLine line = .lookup name ty ↔ ProofRequest line name ty := by
  rw [decideLine_lookup]
  constructor
  · rintro ⟨path, vers, rfl, h1, h2, h3⟩
    obtain ⟨args, d, t, rfl, h4, h5, h6⟩ := decidePath_lookup.mp h3
    obtain ⟨params, h7, h8, h9, h10⟩ := argsLoop_some.mp h4
    obtain ⟨m, h11, h12⟩ := httpType_iff.mp h6
    obtain ⟨hne, h13, h14⟩ := splitOn_eq_iff.mp h7
    refine ⟨params, vers, d, t, m, ?_, h2, ?_, ?_, ?_, (tryFrom_denotes _ _).mp h5, ?_, h11, h12⟩
    · rw [h13, uriParams_eq]; simp [pathPrefix, ascii]
    · rintro rfl; exact hne rfl
    · intro p hp
      have hmem : paramText p ∈ params.map paramText := List.mem_map_of_mem hp
      have h38 := h14 _ hmem
      have h32 : 32 ∉ paramText p := by
        intro h
        apply h1
        rw [List.mem_append, h13]
        exact Or.inr (mem_joinWith h hmem)
      rw [mem_paramText] at h38 h32
      exact ⟨⟨h8 p hp, fun h => h38 (Or.inl h), fun h => h32 (Or.inl h)⟩, fun h => h38 (Or.inr (Or.inr h)), fun h => h32 (Or.inr (Or.inr h))⟩
    · cases hl : lastValue (ascii "d") params with
      | none =>
        rw [hl] at h9
        have : d = [] := h9
        rw [this, tryFrom_nil] at h5; exact nomatch h5
      | some x => rw [hl] at h9; rw [h9]; rfl
    · cases hl : lastValue (ascii "t") params with
      | none =>
        rw [hl] at h10
        have : t = [] := h10
        rw [this] at h6
        have htn : httpType [] = none := by decide
        rw [htn] at h6; exact nomatch h6
      | some x => rw [hl] at h10; rw [h10]; rfl
  · rintro ⟨params, vers, d, t, m, rfl, h2, hne, h3, h4, h5, h6, h7, h8⟩
    refine ⟨pathPrefix ++ uriParams params, vers, ?_, ?_, h2, ?_⟩
    · simp [pathPrefix, ascii]
    · rw [List.mem_append, uriParams_eq]
      rintro (h | h)
      · revert h; decide
      · rcases joinWith_mem h with h | ⟨x, hx, h⟩
        · exact absurd h (by decide)
        · rw [List.mem_map] at hx
          obtain ⟨p, hp, rfl⟩ := hx
          rw [mem_paramText] at h
          rcases h with h | h | h
          · exact (h3 p hp).1.2.2 h
          · exact absurd h (by decide)
          · exact (h3 p hp).2.2 h
    · refine decidePath_lookup.mpr ⟨uriParams params, d, t, rfl, argsLoop_some.mpr ⟨params, ?_, fun p hp => (h3 p hp).1.1, ?_, ?_⟩, (tryFrom_denotes _ _).mpr h5, ?_⟩
      · rw [uriParams_eq]
        refine splitOn_join (by simp [hne]) ?_
        intro x hx h
        rw [List.mem_map] at hx
        obtain ⟨p, hp, rfl⟩ := hx
        rw [mem_paramText] at h
        rcases h with h | h | h
        · exact (h3 p hp).1.2.1 h
        · exact absurd h (by decide)
        · exact (h3 p hp).2.1 h
      · rw [h4]; rfl
      · rw [h6]; rfl
      · exact httpType_iff.mpr ⟨m, h7, h8⟩

/-- The decision for a line is a lookup or an error. -/
theorem decideLine_reject (line : Bytes) : (∃ name ty, decideLine line = .lookup name ty) ∨
    ∃ status msg, decideLine line = .reject status msg ∧ (status = ascii "400 Bad Request" ∨ status = ascii "404 Not Found") := by
  have hb : ∃ status msg, badRequest = .reject status msg ∧ (status = ascii "400 Bad Request" ∨ status = ascii "404 Not Found") :=
    ⟨_, _, rfl, Or.inl rfl⟩
  unfold decideLine
  split
  · split
    · exact Or.inr hb
    · split
      · exact Or.inr hb
      · unfold decidePath
        split
        · exact Or.inr ⟨_, _, rfl, Or.inr rfl⟩
        · split
          · exact Or.inr hb
          · split
            · exact Or.inr ⟨_, _, rfl, Or.inl rfl⟩
            · split
              · exact Or.inr ⟨_, _, rfl, Or.inl rfl⟩
              · split
                · exact Or.inl ⟨_, _, rfl⟩
                · exact Or.inr hb
  · exact Or.inr hb

end Dnssec
