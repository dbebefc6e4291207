import Verif.Proofs.JsonRecords

/-! # A JSON text denotes one value -/

namespace Dnssec

open Spec

/-- The next characters after a value. -/
def Delim : Bytes → Prop
  | [] => True
  | c :: _ => c = 32 ∨ c = 9 ∨ c = 10 ∨ c = 13 ∨ c = 44 ∨ c = 93 ∨ c = 125

/-- Not whitespace. -/
def NoWs : Bytes → Prop
  | [] => True
  | c :: _ => ¬ (c = 32 ∨ c = 9 ∨ c = 10 ∨ c = 13)

theorem delim_ws {w r : Bytes} (h : Ws w) (hr : Delim r) : Delim (w ++ r) := by
  cases w with
  | nil => exact hr
  | cons c w =>
    have := h c (by simp)
    simp only [List.cons_append, Delim]
    rcases this with h | h | h | h <;> simp [h]

theorem ws_split : ∀ {w w' a a' : Bytes}, Ws w → Ws w' → NoWs a → NoWs a' → w ++ a = w' ++ a' → w = w' ∧ a = a'
  | [], [], _, _, _, _, _, _, h => ⟨rfl, h⟩
  | [], c :: w', a, a', _, h2, h3, _, h => by
    rw [List.nil_append] at h
    subst h
    exact absurd (h2 c (by simp)) h3
  | c :: w, [], a, a', h1, _, _, h4, h => by
    rw [List.nil_append] at h
    subst h
    exact absurd (h1 c (by simp)) h4
  | c :: w, c' :: w', a, a', h1, h2, h3, h4, h => by
    simp only [List.cons_append, List.cons.injEq] at h
    obtain ⟨rfl, h⟩ := h
    obtain ⟨rfl, rfl⟩ := ws_split (fun c hc => h1 c (by simp [hc])) (fun c hc => h2 c (by simp [hc])) h3 h4 h
    exact ⟨rfl, rfl⟩

/-- Characters of numbers. -/
def NumChar (c : UInt8) : Prop := (48 ≤ c.toNat ∧ c.toNat ≤ 57) ∨ c = 45 ∨ c = 43 ∨ c = 46 ∨ c = 101 ∨ c = 69

theorem numChar_not_delim {c : UInt8} {r : Bytes} (h : NumChar c) : ¬ Delim (c :: r) := by
  intro hd
  rcases hd with rfl | rfl | rfl | rfl | rfl | rfl | rfl <;> revert h <;> unfold NumChar <;> decide

theorem num_split : ∀ {t t' r r' : Bytes}, (∀ c ∈ t, NumChar c) → (∀ c ∈ t', NumChar c) → Delim r → Delim r' → t ++ r = t' ++ r' → t = t'
  | [], [], _, _, _, _, _, _, _ => rfl
  | [], c :: t', r, r', _, h2, h3, _, h => by
    rw [List.nil_append] at h
    subst h
    exact absurd h3 (numChar_not_delim (h2 c (by simp)))
  | c :: t, [], r, r', h1, _, _, h4, h => by
    rw [List.nil_append] at h
    subst h
    exact absurd h4 (numChar_not_delim (h1 c (by simp)))
  | c :: t, c' :: t', r, r', h1, h2, h3, h4, h => by
    simp only [List.cons_append, List.cons.injEq] at h
    obtain ⟨rfl, h⟩ := h
    rw [num_split (fun c hc => h1 c (by simp [hc])) (fun c hc => h2 c (by simp [hc])) h3 h4 h]

theorem chars_unique {t s : Bytes} (h : Chars t s) : ∀ {t' s' r r' : Bytes}, Chars t' s' → t ++ 34 :: r = t' ++ 34 :: r' →
    t = t' ∧ s = s' ∧ r = r' := by
  have e117 : shortEscape 117 = none := by decide
  induction h with
  | nil =>
    intro t' s' r r' h' e
    cases h' with
    | nil => simpa using e
    | plain _ h2 _ _ => simp only [List.nil_append, List.cons_append, List.cons.injEq] at e; exact absurd e.1.symm h2
    | escape => simp at e
    | unicode => simp at e
    | surrogates => simp at e
  | @plain c t s h1 h2 h3 _ ih =>
    intro t' s' r r' h' e
    cases h' with
    | nil => simp only [List.nil_append, List.cons_append, List.cons.injEq] at e; exact absurd e.1 h2
    | plain _ _ _ h' =>
      simp only [List.cons_append, List.cons.injEq] at e
      obtain ⟨rfl, e⟩ := e
      obtain ⟨rfl, rfl, rfl⟩ := ih h' e
      exact ⟨rfl, rfl, rfl⟩
    | escape => simp only [List.cons_append, List.cons.injEq] at e; exact absurd e.1 h3
    | unicode => simp only [List.cons_append, List.cons.injEq] at e; exact absurd e.1 h3
    | surrogates => simp only [List.cons_append, List.cons.injEq] at e; exact absurd e.1 h3
  | @escape c d t s h1 _ ih =>
    intro t' s' r r' h' e
    cases h' with
    | nil => simp at e
    | plain _ _ h3 _ => simp only [List.cons_append, List.cons.injEq] at e; exact absurd e.1.symm h3
    | escape h1' h' =>
      simp only [List.cons_append, List.cons.injEq, true_and] at e
      obtain ⟨rfl, e⟩ := e
      obtain ⟨rfl, rfl, rfl⟩ := ih h' e
      rw [h1] at h1'
      cases h1'
      exact ⟨rfl, rfl, rfl⟩
    | unicode =>
      simp only [List.cons_append, List.cons.injEq, true_and] at e
      obtain ⟨rfl, e⟩ := e
      rw [e117] at h1
      exact nomatch h1
    | surrogates =>
      simp only [List.cons_append, List.cons.injEq, true_and] at e
      obtain ⟨rfl, e⟩ := e
      rw [e117] at h1
      exact nomatch h1
  | @unicode a b c d n t s h1 h2 _ ih =>
    intro t' s' r r' h' e
    cases h' with
    | nil => simp at e
    | plain _ _ h3 _ => simp only [List.cons_append, List.cons.injEq] at e; exact absurd e.1.symm h3
    | escape h1' h' =>
      simp only [List.cons_append, List.cons.injEq, true_and] at e
      obtain ⟨rfl, e⟩ := e
      rw [e117] at h1'
      exact nomatch h1'
    | unicode h1' _ h' =>
      simp only [List.cons_append, List.cons.injEq, true_and] at e
      obtain ⟨rfl, rfl, rfl, rfl, e⟩ := e
      obtain ⟨rfl, rfl, rfl⟩ := ih h' e
      rw [h1] at h1'
      cases h1'
      exact ⟨rfl, rfl, rfl⟩
    | surrogates h1' h3 h4 =>
      simp only [List.cons_append, List.cons.injEq, true_and] at e
      obtain ⟨rfl, rfl, rfl, rfl, e⟩ := e
      rw [h1] at h1'
      cases h1'
      omega
  | @surrogates a b c d a' b' c' d' x l t s h1 h2 h3 h4 h5 h6 _ ih =>
    intro t' s' r r' h' e
    cases h' with
    | nil => simp at e
    | plain _ _ h3 _ => simp only [List.cons_append, List.cons.injEq] at e; exact absurd e.1.symm h3
    | escape h1' h' =>
      simp only [List.cons_append, List.cons.injEq, true_and] at e
      obtain ⟨rfl, e⟩ := e
      rw [e117] at h1'
      exact nomatch h1'
    | unicode h1' _ h' =>
      simp only [List.cons_append, List.cons.injEq, true_and] at e
      obtain ⟨rfl, rfl, rfl, rfl, e⟩ := e
      rw [h1] at h1'
      cases h1'
      omega
    | surrogates h1' _ _ h4' _ _ h' =>
      simp only [List.cons_append, List.cons.injEq, true_and] at e
      obtain ⟨rfl, rfl, rfl, rfl, rfl, rfl, rfl, rfl, e⟩ := e
      obtain ⟨rfl, rfl, rfl⟩ := ih h' e
      rw [h1] at h1'
      rw [h4] at h4'
      cases h1'
      cases h4'
      exact ⟨rfl, rfl, rfl⟩

/-- The first character of a value. -/
inductive FirstChar : UInt8 → JVal → Prop
  | nat {c : UInt8} {n : Nat} : (48 ≤ c.toNat ∧ c.toNat ≤ 57) ∨ c = 45 → FirstChar c (.nat n)
  | number {c : UInt8} {t : Bytes} : (48 ≤ c.toNat ∧ c.toNat ≤ 57) ∨ c = 45 → FirstChar c (.number t)
  | str {s : Bytes} : FirstChar 34 (.str s)
  | arr {vs : List JVal} : FirstChar 91 (.arr vs)
  | obj {ms : List (Bytes × JVal)} : FirstChar 123 (.obj ms)
  | true : FirstChar 116 (.bool true)
  | false : FirstChar 102 (.bool false)
  | null : FirstChar 110 .null

theorem intText_first {t : Bytes} {n : Nat} (h : IntText t n) : ∃ c r, t = c :: r ∧ 48 ≤ c.toNat ∧ c.toNat ≤ 57 := by
  cases t with
  | nil => exact absurd rfl h.nonempty
  | cons c r => exact ⟨c, r, rfl, h.digits c (by simp)⟩

theorem numberText_first {t : Bytes} (h : NumberText t) : ∃ c r, t = c :: r ∧ ((48 ≤ c.toNat ∧ c.toNat ≤ 57) ∨ c = 45) := by
  obtain ⟨sign, int, frac, exp, n, rfl, h1, h2, _⟩ := h
  rcases h1 with rfl | rfl
  · obtain ⟨c, r, rfl, hc⟩ := intText_first h2
    exact ⟨c, _, rfl, Or.inl hc⟩
  · exact ⟨45, _, rfl, Or.inr rfl⟩

theorem value_first {t : Bytes} {v : JVal} (h : Value t v) : ∃ c r, t = c :: r ∧ FirstChar c v := by
  cases h with
  | nat h =>
    obtain ⟨c, r, rfl, hc⟩ := intText_first h
    exact ⟨c, r, rfl, .nat (Or.inl hc)⟩
  | number h _ =>
    obtain ⟨c, r, rfl, hc⟩ := numberText_first h
    exact ⟨c, r, rfl, .number hc⟩
  | str h => exact ⟨_, _, rfl, .str⟩
  | arrEmpty h => exact ⟨_, _, rfl, .arr⟩
  | arr h => exact ⟨_, _, rfl, .arr⟩
  | objEmpty h => exact ⟨_, _, rfl, .obj⟩
  | obj h => exact ⟨_, _, rfl, .obj⟩
  | true => exact ⟨_, _, rfl, .true⟩
  | false => exact ⟨_, _, rfl, .false⟩
  | null => exact ⟨_, _, rfl, .null⟩

theorem firstChar_noWs {c : UInt8} {r : Bytes} {v : JVal} (h : FirstChar c v) : NoWs (c :: r) ∧ c ≠ 93 := by
  cases h <;> (try exact ⟨by simp [NoWs], by decide⟩)
  all_goals
    rename_i h
    refine ⟨?_, ?_⟩
    · rintro (rfl | rfl | rfl | rfl) <;> revert h <;> decide
    · rintro rfl
      revert h
      decide

theorem value_noWs {t r : Bytes} {v : JVal} (h : Value t v) : NoWs (t ++ r) := by
  obtain ⟨c, t', rfl, hc⟩ := value_first h
  exact (firstChar_noWs hc).1

theorem elems_not_empty {t w r r' : Bytes} {vs : List JVal} (h : Elems t vs) (hw : Ws w) : t ++ r' ≠ w ++ 93 :: r := by
  have key : ∀ {w1 x y : Bytes} {v : JVal}, Ws w1 → Value x v → w1 ++ (x ++ y) ≠ w ++ 93 :: r := by
    intro w1 x y v h1 h2 e
    obtain ⟨c, x', rfl, hc⟩ := value_first h2
    have := (ws_split h1 hw (value_noWs h2) (by simp [NoWs]) e).2
    simp only [List.cons_append, List.cons.injEq] at this
    exact (firstChar_noWs (r := []) hc).2 this.1
  cases h with
  | one h1 h2 h3 => simpa [List.append_assoc] using key h1 h2
  | cons h1 h2 h3 h4 => simpa [List.append_assoc] using key h1 h2

theorem members_not_empty {t w r r' : Bytes} {ms : List (Bytes × JVal)} (h : Members t ms) (hw : Ws w) : t ++ r' ≠ w ++ 125 :: r := by
  have key : ∀ {w1 y : Bytes}, Ws w1 → w1 ++ 34 :: y ≠ w ++ 125 :: r := by
    intro w1 y h1 e
    have := (ws_split h1 hw (by simp [NoWs]) (by simp [NoWs]) e).2
    simp at this
  cases h with
  | one h1 h2 h3 => simpa [List.append_assoc] using key h1
  | cons h1 h2 h3 h4 => simpa [List.append_assoc] using key h1

/-- The kinds of values. -/
def kind : JVal → Nat
  | .nat _ => 0
  | .number _ => 0
  | .str _ => 1
  | .arr _ => 2
  | .obj _ => 3
  | .bool true => 4
  | .bool false => 5
  | .null => 6

theorem firstChar_kind {c : UInt8} {v v' : JVal} (h : FirstChar c v) (h' : FirstChar c v') : kind v = kind v' := by
  cases h <;> cases h' <;> first | rfl | (rename_i h; exact absurd h (by decide))

theorem value_kind {t t' r r' : Bytes} {v v' : JVal} (h : Value t v) (h' : Value t' v') (e : t ++ r = t' ++ r') : kind v = kind v' := by
  obtain ⟨c, x, rfl, hc⟩ := value_first h
  obtain ⟨c', x', rfl, hc'⟩ := value_first h'
  simp only [List.cons_append, List.cons.injEq] at e
  obtain ⟨rfl, _⟩ := e
  exact firstChar_kind hc hc'

theorem intText_numChars {t : Bytes} {n : Nat} (h : IntText t n) : ∀ c ∈ t, NumChar c := fun c hc => Or.inl (h.digits c hc)

theorem delim_comma {r : Bytes} : Delim (44 :: r) := by simp [Delim]
theorem delim_bracket {r : Bytes} : Delim (93 :: r) := by simp [Delim]
theorem delim_brace {r : Bytes} : Delim (125 :: r) := by simp [Delim]

theorem value_unique {t : Bytes} {v : JVal} (h : Value t v) : ∀ (t' r r' : Bytes) (v' : JVal), Value t' v' → Delim r → Delim r' →
    t ++ r = t' ++ r' → t = t' ∧ v = v' := by
  refine Value.rec
    (motive_1 := fun t v _ => ∀ (t' r r' : Bytes) (v' : JVal), Value t' v' → Delim r → Delim r' → t ++ r = t' ++ r' → t = t' ∧ v = v')
    (motive_2 := fun t vs _ => ∀ (t' r r' : Bytes) (vs' : List JVal), Elems t' vs' → t ++ 93 :: r = t' ++ 93 :: r' → t = t' ∧ vs = vs')
    (motive_3 := fun t ms _ => ∀ (t' r r' : Bytes) (ms' : List (Bytes × JVal)), Members t' ms' → t ++ 125 :: r = t' ++ 125 :: r' →
      t = t' ∧ ms = ms')
    ?_ ?_ ?_ ?_ ?_ ?_ ?_ ?_ ?_ ?_ ?_ ?_ ?_ ?_ h
  · intro t n h t' r r' v' h' hr hr' e
    have hk := value_kind (.nat h) h' e
    cases h' with
    | nat h' =>
      obtain rfl := num_split (intText_numChars h) (intText_numChars h') hr hr' e
      exact ⟨rfl, by rw [h.value, h'.value]⟩
    | number h' hn =>
      obtain rfl := num_split (intText_numChars h) (numberText_chars h') hr hr' e
      exact absurd h (hn n)
    | _ => simp [kind] at hk
  · intro t h hn t' r r' v' h' hr hr' e
    have hk := value_kind (.number h hn) h' e
    cases h' with
    | nat h' =>
      obtain rfl := num_split (numberText_chars h) (intText_numChars h') hr hr' e
      exact absurd h' (hn _)
    | number h' _ =>
      obtain rfl := num_split (numberText_chars h) (numberText_chars h') hr hr' e
      exact ⟨rfl, rfl⟩
    | _ => simp [kind] at hk
  · intro t s h t' r r' v' h' hr hr' e
    have hk := value_kind (.str h) h' e
    cases h' with
    | str h' =>
      simp only [List.cons_append, List.append_assoc, List.cons.injEq, true_and] at e
      obtain ⟨rfl, rfl, _⟩ := chars_unique h h' e
      exact ⟨rfl, rfl⟩
    | _ => simp [kind] at hk
  · intro w hw t' r r' v' h' hr hr' e
    have hk := value_kind (.arrEmpty hw) h' e
    cases h' with
    | arrEmpty hw' =>
      simp only [List.cons_append, List.append_assoc, List.cons.injEq, true_and] at e
      obtain ⟨rfl, _⟩ := ws_split hw hw' (by simp [NoWs]) (by simp [NoWs]) e
      exact ⟨rfl, rfl⟩
    | arr h' =>
      simp only [List.cons_append, List.append_assoc, List.cons.injEq, true_and] at e
      exact absurd e.symm (elems_not_empty h' hw)
    | _ => simp [kind] at hk
  · intro t vs h ih t' r r' v' h' hr hr' e
    have hk := value_kind (.arr h) h' e
    cases h' with
    | arrEmpty hw' =>
      simp only [List.cons_append, List.append_assoc, List.cons.injEq, true_and] at e
      exact absurd e (elems_not_empty h hw')
    | arr h' =>
      simp only [List.cons_append, List.append_assoc, List.cons.injEq, true_and] at e
      obtain ⟨rfl, rfl⟩ := ih _ _ _ _ h' e
      exact ⟨rfl, rfl⟩
    | _ => simp [kind] at hk
  · intro w hw t' r r' v' h' hr hr' e
    have hk := value_kind (.objEmpty hw) h' e
    cases h' with
    | objEmpty hw' =>
      simp only [List.cons_append, List.append_assoc, List.cons.injEq, true_and] at e
      obtain ⟨rfl, _⟩ := ws_split hw hw' (by simp [NoWs]) (by simp [NoWs]) e
      exact ⟨rfl, rfl⟩
    | obj h' =>
      simp only [List.cons_append, List.append_assoc, List.cons.injEq, true_and] at e
      exact absurd e.symm (members_not_empty h' hw)
    | _ => simp [kind] at hk
  · intro t ms h ih t' r r' v' h' hr hr' e
    have hk := value_kind (.obj h) h' e
    cases h' with
    | objEmpty hw' =>
      simp only [List.cons_append, List.append_assoc, List.cons.injEq, true_and] at e
      exact absurd e (members_not_empty h hw')
    | obj h' =>
      simp only [List.cons_append, List.append_assoc, List.cons.injEq, true_and] at e
      obtain ⟨rfl, rfl⟩ := ih _ _ _ _ h' e
      exact ⟨rfl, rfl⟩
    | _ => simp [kind] at hk
  · intro t' r r' v' h' hr hr' e
    have hk := value_kind .true h' e
    cases h' with
    | true => exact ⟨rfl, rfl⟩
    | _ => simp [kind] at hk
  · intro t' r r' v' h' hr hr' e
    have hk := value_kind .false h' e
    cases h' with
    | false => exact ⟨rfl, rfl⟩
    | _ => simp [kind] at hk
  · intro t' r r' v' h' hr hr' e
    have hk := value_kind .null h' e
    cases h' with
    | null => exact ⟨rfl, rfl⟩
    | _ => simp [kind] at hk
  · intro w1 t w2 v h1 h2 h3 ih t' r r' vs' h' e
    cases h' with
    | one h1' h2' h3' =>
      simp only [List.append_assoc] at e
      obtain ⟨rfl, e1⟩ := ws_split h1 h1' (value_noWs h2) (value_noWs h2') e
      obtain ⟨rfl, rfl⟩ := ih _ _ _ _ h2' (delim_ws h3 delim_bracket) (delim_ws h3' delim_bracket) e1
      obtain ⟨rfl, _⟩ := ws_split h3 h3' (by simp [NoWs]) (by simp [NoWs]) (List.append_cancel_left e1)
      exact ⟨rfl, rfl⟩
    | cons h1' h2' h3' h4' =>
      simp only [List.append_assoc, List.cons_append] at e
      obtain ⟨rfl, e1⟩ := ws_split h1 h1' (value_noWs h2) (value_noWs h2') e
      obtain ⟨rfl, rfl⟩ := ih _ _ _ _ h2' (delim_ws h3 delim_bracket) (delim_ws h3' delim_comma) e1
      have := (ws_split h3 h3' (by simp [NoWs]) (by simp [NoWs]) (List.append_cancel_left e1)).2
      simp at this
  · intro w1 t w2 ts v vs h1 h2 h3 h4 ih ih2 t' r r' vs' h' e
    cases h' with
    | one h1' h2' h3' =>
      simp only [List.append_assoc, List.cons_append] at e
      obtain ⟨rfl, e1⟩ := ws_split h1 h1' (value_noWs h2) (value_noWs h2') e
      obtain ⟨rfl, rfl⟩ := ih _ _ _ _ h2' (delim_ws h3 delim_comma) (delim_ws h3' delim_bracket) e1
      have := (ws_split h3 h3' (by simp [NoWs]) (by simp [NoWs]) (List.append_cancel_left e1)).2
      simp at this
    | cons h1' h2' h3' h4' =>
      simp only [List.append_assoc, List.cons_append] at e
      obtain ⟨rfl, e1⟩ := ws_split h1 h1' (value_noWs h2) (value_noWs h2') e
      obtain ⟨rfl, rfl⟩ := ih _ _ _ _ h2' (delim_ws h3 delim_comma) (delim_ws h3' delim_comma) e1
      obtain ⟨rfl, e2⟩ := ws_split h3 h3' (by simp [NoWs]) (by simp [NoWs]) (List.append_cancel_left e1)
      simp only [List.cons.injEq, true_and] at e2
      obtain ⟨rfl, rfl⟩ := ih2 _ _ _ _ h4' e2
      exact ⟨rfl, rfl⟩
  · intro w1 k w2 w3 t w4 key v h1 hk h2 h3 hv h4 ih t' r r' ms' h' e
    cases h' with
    | one h1' hk' h2' h3' hv' h4' =>
      simp only [List.append_assoc, List.cons_append] at e
      obtain ⟨rfl, e1⟩ := ws_split h1 h1' (by simp [NoWs]) (by simp [NoWs]) e
      simp only [List.cons.injEq, true_and] at e1
      obtain ⟨rfl, rfl, e2⟩ := chars_unique hk hk' e1
      obtain ⟨rfl, e3⟩ := ws_split h2 h2' (by simp [NoWs]) (by simp [NoWs]) e2
      simp only [List.cons.injEq, true_and] at e3
      obtain ⟨rfl, e4⟩ := ws_split h3 h3' (value_noWs hv) (value_noWs hv') e3
      obtain ⟨rfl, rfl⟩ := ih _ _ _ _ hv' (delim_ws h4 delim_brace) (delim_ws h4' delim_brace) e4
      obtain ⟨rfl, _⟩ := ws_split h4 h4' (by simp [NoWs]) (by simp [NoWs]) (List.append_cancel_left e4)
      exact ⟨rfl, rfl⟩
    | cons h1' hk' h2' h3' hv' h4' h5' =>
      simp only [List.append_assoc, List.cons_append] at e
      obtain ⟨rfl, e1⟩ := ws_split h1 h1' (by simp [NoWs]) (by simp [NoWs]) e
      simp only [List.cons.injEq, true_and] at e1
      obtain ⟨rfl, rfl, e2⟩ := chars_unique hk hk' e1
      obtain ⟨rfl, e3⟩ := ws_split h2 h2' (by simp [NoWs]) (by simp [NoWs]) e2
      simp only [List.cons.injEq, true_and] at e3
      obtain ⟨rfl, e4⟩ := ws_split h3 h3' (value_noWs hv) (value_noWs hv') e3
      obtain ⟨rfl, rfl⟩ := ih _ _ _ _ hv' (delim_ws h4 delim_brace) (delim_ws h4' delim_comma) e4
      have := (ws_split h4 h4' (by simp [NoWs]) (by simp [NoWs]) (List.append_cancel_left e4)).2
      simp at this
  · intro w1 k w2 w3 t w4 key ts v ms h1 hk h2 h3 hv h4 _ ih ih2 t' r r' ms' h' e
    cases h' with
    | one h1' hk' h2' h3' hv' h4' =>
      simp only [List.append_assoc, List.cons_append] at e
      obtain ⟨rfl, e1⟩ := ws_split h1 h1' (by simp [NoWs]) (by simp [NoWs]) e
      simp only [List.cons.injEq, true_and] at e1
      obtain ⟨rfl, rfl, e2⟩ := chars_unique hk hk' e1
      obtain ⟨rfl, e3⟩ := ws_split h2 h2' (by simp [NoWs]) (by simp [NoWs]) e2
      simp only [List.cons.injEq, true_and] at e3
      obtain ⟨rfl, e4⟩ := ws_split h3 h3' (value_noWs hv) (value_noWs hv') e3
      obtain ⟨rfl, rfl⟩ := ih _ _ _ _ hv' (delim_ws h4 delim_comma) (delim_ws h4' delim_brace) e4
      have := (ws_split h4 h4' (by simp [NoWs]) (by simp [NoWs]) (List.append_cancel_left e4)).2
      simp at this
    | cons h1' hk' h2' h3' hv' h4' h5' =>
      simp only [List.append_assoc, List.cons_append] at e
      obtain ⟨rfl, e1⟩ := ws_split h1 h1' (by simp [NoWs]) (by simp [NoWs]) e
      simp only [List.cons.injEq, true_and] at e1
      obtain ⟨rfl, rfl, e2⟩ := chars_unique hk hk' e1
      obtain ⟨rfl, e3⟩ := ws_split h2 h2' (by simp [NoWs]) (by simp [NoWs]) e2
      simp only [List.cons.injEq, true_and] at e3
      obtain ⟨rfl, e4⟩ := ws_split h3 h3' (value_noWs hv) (value_noWs hv') e3
      obtain ⟨rfl, rfl⟩ := ih _ _ _ _ hv' (delim_ws h4 delim_comma) (delim_ws h4' delim_comma) e4
      obtain ⟨rfl, e5⟩ := ws_split h4 h4' (by simp [NoWs]) (by simp [NoWs]) (List.append_cancel_left e4)
      simp only [List.cons.injEq, true_and] at e5
      obtain ⟨rfl, rfl⟩ := ih2 _ _ _ _ h5' e5
      exact ⟨rfl, rfl⟩

/-- A JSON text denotes one value. -/
theorem jsonText_unique {t : Bytes} {v v' : JVal} (h : JsonText t v) (h' : JsonText t v') : v = v' := by
  obtain ⟨_, w1, x, w2, rfl, h1, h2, h3⟩ := h
  obtain ⟨_, w1', x', w2', e, h1', h2', h3'⟩ := h'
  obtain ⟨rfl, e1⟩ := ws_split h1 h1' (value_noWs h2) (value_noWs h2') e
  have d : ∀ {w : Bytes}, Ws w → Delim w := fun {w} h => by
    have := delim_ws h (r := []) trivial
    rwa [List.append_nil] at this
  exact (value_unique h2 _ _ _ _ h2' (d h3) (d h3') e1).2

end Dnssec
