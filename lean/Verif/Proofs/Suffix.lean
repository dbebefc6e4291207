import Verif.Proofs.Labels

/-! # What a textual suffix says about labels -/

namespace Dnssec

open Spec

theorem endsWith_iff (s t : Bytes) : endsWith s t = true ↔ ∃ pre, s = pre ++ t := by
  unfold endsWith
  rw [List.isSuffixOf_iff_suffix]
  exact ⟨fun ⟨a, h⟩ => ⟨a, h.symm⟩, fun ⟨a, h⟩ => ⟨a, h.symm⟩⟩

/-- Concatenation of labels with dots (`text` but for the root). -/
abbrev dotted (ls : List Bytes) : Bytes := (ls.map (fun l => l ++ [dot])).flatten

theorem dot_split : ∀ {a b x y : Bytes}, dot ∉ a → dot ∉ b → a ++ dot :: x = b ++ dot :: y → a = b ∧ x = y
  | [], [], _, _, _, _, h => by simpa using h
  | [], c :: b, _, _, _, hb, h => by
    obtain ⟨rfl, _⟩ := List.cons.inj h; simp at hb
  | c :: a, [], _, _, ha, _, h => by
    obtain ⟨rfl, _⟩ := List.cons.inj h; simp at ha
  | c :: a, d :: b, x, y, ha, hb, h => by
    obtain ⟨rfl, h'⟩ := List.cons.inj h
    obtain ⟨e, h2⟩ := dot_split (a := a) (b := b) (fun h => ha (by simp [h])) (fun h => hb (by simp [h])) h'
    exact ⟨by rw [e], h2⟩

theorem dotted_injective : ∀ {ls ms : List Bytes}, (∀ l ∈ ls, dot ∉ l) → (∀ l ∈ ms, dot ∉ l) → dotted ls = dotted ms → ls = ms
  | [], [], _, _, _ => rfl
  | [], m :: ms, _, _, h => by simp [dotted] at h
  | l :: ls, [], _, _, h => by simp [dotted] at h
  | l :: ls, m :: ms, hl, hm, h => by
    simp only [dotted, List.map_cons, List.flatten_cons, List.append_assoc, List.cons_append, List.nil_append] at h
    obtain ⟨rfl, h2⟩ := dot_split (hl l (by simp)) (hm m (by simp)) h
    rw [dotted_injective (fun x hx => hl x (by simp [hx])) (fun x hx => hm x (by simp [hx])) h2]

theorem dotted_suffix {z : Bytes} {zs : List Bytes} (hz : dot ∉ z) (hne : z ≠ []) (hzs : ∀ l ∈ zs, dot ∉ l) :
    ∀ {rs : List Bytes}, (∀ l ∈ rs, dot ∉ l) → ∀ {pre : Bytes}, dotted rs = pre ++ dotted (z :: zs) →
    ∃ above x, rs = above ++ (x ++ z) :: zs ∧ pre = dotted above ++ x
  | [], _, pre, h => by simp [dotted] at h
  | r :: rs, hr, pre, h => by
    have hr0 : dot ∉ r := hr r (by simp)
    have hrs : ∀ l ∈ rs, dot ∉ l := fun l hl => hr l (by simp [hl])
    simp only [dotted, List.map_cons, List.flatten_cons, List.append_assoc] at h
    rcases List.append_eq_append_iff.mp h with ⟨a, h1, h2⟩ | ⟨a, h1, h2⟩
    · -- the first label is inside `pre`
      cases a with
      | nil =>
        exfalso
        rw [List.nil_append] at h2
        cases z with
        | nil => exact hne rfl
        | cons c z =>
          simp only [List.cons_append, List.nil_append, List.cons.injEq] at h2
          exact hz (by simp [h2.1])
      | cons c a =>
        simp only [List.cons_append, List.nil_append, List.cons.injEq] at h2
        obtain ⟨rfl, h2⟩ := h2
        obtain ⟨above, x, e1, e2⟩ := dotted_suffix hz hne hzs hrs (pre := a) (by simpa [dotted] using h2)
        refine ⟨r :: above, x, by rw [e1]; rfl, ?_⟩
        rw [h1, e2]; simp [dotted]
    · -- `pre` ends inside the first label
      refine ⟨[], pre, ?_, by simp [dotted]⟩
      have ha : dot ∉ a := fun ha => hr0 (by rw [h1]; simp [ha])
      have h3 : a ++ dot :: dotted rs = z ++ dot :: dotted zs := by simpa [dotted] using h2.symm
      obtain ⟨rfl, h4⟩ := dot_split ha hz h3
      rw [dotted_injective hrs hzs h4, h1]
      rfl

/-- A textual suffix matches labels exactly, except that the first label of the suffix may match only the end of a label. -/
theorem text_suffix {rs zs : List Bytes} (hr : ∀ l ∈ rs, Label l) (hz : ∀ l ∈ zs, Label l) (h : endsWith (text rs) (text zs) = true) :
    zs = [] ∨ ∃ above x z zs', zs = z :: zs' ∧ rs = above ++ (x ++ z) :: zs' := by
  cases zs with
  | nil => exact Or.inl rfl
  | cons z zs =>
    right
    obtain ⟨pre, h⟩ := (endsWith_iff _ _).mp h
    have hz0 := (hz z (by simp))
    rw [text_ne_nil (List.cons_ne_nil z zs)] at h
    have hrs : rs ≠ [] := by
      rintro rfl
      have hlen := congrArg List.length h
      have := List.length_pos_iff.mpr hz0.nonempty
      simp [text] at hlen
      omega
    rw [text_ne_nil hrs] at h
    obtain ⟨above, x, e1, _⟩ := dotted_suffix hz0.nodot hz0.nonempty (fun l hl => (hz l (by simp [hl])).nodot)
      (fun l hl => (hr l hl).nodot) (pre := pre) h
    exact ⟨above, x, z, zs, rfl, e1⟩

theorem text_suffix_of_atOrBelow {rs zs : List Bytes} (h : AtOrBelow rs zs) : endsWith (text rs) (text zs) = true := by
  obtain ⟨pre, rfl⟩ := h
  rw [endsWith_iff]
  by_cases hz : zs = []
  · subst hz
    rw [List.append_nil]
    by_cases hp : pre = []
    · subst hp; exact ⟨[], rfl⟩
    · rw [text_ne_nil hp]
      obtain ⟨init, l, rfl⟩ : ∃ init l, pre = init ++ [l] := ⟨pre.dropLast, pre.getLast hp, (List.dropLast_concat_getLast hp).symm⟩
      refine ⟨(init.map (fun l => l ++ [dot])).flatten ++ l, ?_⟩
      simp [text]
  · rw [text_ne_nil hz, text_ne_nil (by simp [hz])]
    exact ⟨(pre.map (fun l => l ++ [dot])).flatten, by simp⟩

end Dnssec
