import Verif.Proofs.Name

/-! # Lemmas about `labels()` and `trailing_n_labels()` -/

namespace Dnssec

open Spec

theorem count_dots {ls : List Bytes} (h : ∀ l ∈ ls, dot ∉ l) :
    (((ls.map (fun l => l ++ [dot])).flatten).filter (fun c => c = dot)).length = ls.length := by
  induction ls with
  | nil => simp
  | cons l ls ih =>
    have h1 := ih (fun x hx => h x (by simp [hx]))
    have h2 : l.filter (fun c => c = dot) = [] := by
      rw [List.filter_eq_nil_iff]
      intro a ha; simp; rintro rfl; exact h l (by simp) ha
    simp [List.filter_append, h2] at h1 ⊢
    omega

theorem sum_ge (ls : List Bytes) (hl : ∀ l ∈ ls, Label l) : 2 * ls.length ≤ (ls.map (fun l => l.length + 1)).sum := by
  induction ls with
  | nil => simp
  | cons l ls ih =>
    have := ih (fun x hx => hl x (by simp [hx]))
    have h2 := (hl l (by simp)).nonempty
    have : 0 < l.length := List.length_pos_iff.mpr h2
    simp only [List.length_cons, List.map_cons, List.sum_cons]; omega

theorem Spec.HasLabels.length_le {n : Name} {ls : List Bytes} (h : HasLabels n ls) : ls.length ≤ 127 := by
  by_cases he : ls = []
  · subst he; simp
  · have h1 := sum_ge ls h.labels
    have h2 := h.short
    rw [h.bytes, text_length he] at h2
    omega

theorem Spec.HasLabels.labels_eq {n : Name} {ls : List Bytes} (h : HasLabels n ls) : n.labels.toNat = ls.length := by
  unfold Name.labels
  have hle := h.length_le
  by_cases he : ls = []
  · subst he; rw [if_pos (by rw [h.bytes]; rfl)]; rfl
  · rw [if_neg (by rw [h.bytes]; exact text_nonroot he h.labels), h.bytes, text_ne_nil he,
      count_dots (fun l hl => (h.labels l hl).nodot)]
    rw [UInt8.toNat_ofNat']
    omega

theorem splitOnceDot_label {l : Bytes} (h : dot ∉ l) (r : Bytes) : splitOnceDot (l ++ dot :: r) = some (l, r) := by
  induction l with
  | nil => simp [splitOnceDot]
  | cons b bs ih =>
    have hb : b ≠ dot := by intro e; subst e; simp at h
    have := ih (by simp_all)
    simp [splitOnceDot, hb, this]

theorem splitnDot_flatten : ∀ (k : Nat) (ls : List Bytes), (∀ l ∈ ls, dot ∉ l) → k ≤ ls.length →
    splitnDot (k + 1) ((ls.map (fun l => l ++ [dot])).flatten) =
      ls.take k ++ [((ls.drop k).map (fun l => l ++ [dot])).flatten] := by
  intro k
  induction k with
  | zero => intro ls _ _; simp [splitnDot]
  | succ k ih =>
    intro ls hl hk
    cases ls with
    | nil => simp at hk
    | cons l ls =>
      have h1 := splitOnceDot_label (hl l (by simp)) ((ls.map (fun l => l ++ [dot])).flatten)
      simp only [List.map_cons, List.flatten_cons, List.append_assoc, List.cons_append, List.nil_append, splitnDot, h1,
        List.take_succ_cons, List.drop_succ_cons]
      rw [ih ls (fun x hx => hl x (by simp [hx])) (by simpa using hk)]

theorem Spec.HasLabels.trailing {n : Name} {ls : List Bytes} (h : HasLabels n ls) (k : UInt8) :
    n.trailingNLabels k = if k.toNat ≤ ls.length then some (text (ls.drop (ls.length - k.toNat))) else none := by
  have hle := h.length_le
  have hlab := h.labels_eq
  unfold Name.trailingNLabels
  simp only [GT.gt, UInt8.lt_iff_toNat_lt, ← UInt8.toNat_inj, hlab]
  split
  · rename_i hk; rw [if_neg (by omega)]
  split
  · rename_i h1 h2; rw [if_pos (by omega), h.bytes, h2]; simp
  split
  · rename_i h1 h2 h3
    rw [if_pos (by omega)]
    have h3 : k.toNat = 0 := h3
    rw [h3]; simp [text]
  · rename_i h1 h2 h3
    have h3 : k.toNat ≠ 0 := h3
    rw [if_pos (by omega)]
    have hne : ls ≠ [] := by rintro rfl; simp at h1; omega
    rw [h.bytes, text_ne_nil hne, splitnDot_flatten _ _ (fun l hl => (h.labels l hl).nodot) (by omega)]
    rw [List.getLast?_append]
    simp only [List.getLast?_singleton, Option.some_or]
    rw [text_ne_nil]
    intro e
    have := congrArg List.length e
    simp at this; omega

theorem sum_append_len (a b : List Bytes) :
    ((a ++ b).map (fun l => l.length + 1)).sum = (a.map (fun l => l.length + 1)).sum + (b.map (fun l => l.length + 1)).sum := by
  simp

theorem Spec.HasLabels.drop {n : Name} {ls : List Bytes} (h : HasLabels n ls) (k : Nat) :
    HasLabels ⟨text (ls.drop k)⟩ (ls.drop k) := by
  refine ⟨fun l hl => h.labels l (List.mem_of_mem_drop hl), rfl, ?_⟩
  by_cases he : ls.drop k = []
  · simp [he, text]
  · have hne : ls ≠ [] := by rintro rfl; simp at he
    have := h.short
    rw [h.bytes, text_length hne] at this
    have h2 := sum_append_len (ls.take k) (ls.drop k)
    rw [List.take_append_drop] at h2
    simp only [text_length he]
    omega

end Dnssec
