import Verif.Spec.Labels
import Verif.Proofs.NameWire
import Verif.Proofs.Canonical

/-! # Lemmas: labels of names on the wire -/

namespace Dnssec

open Spec

theorem Spec.LabelsAt.decodes {m : Nat} {msg inp rest : Bytes} {k : Nat} {ls : List Bytes} (h : LabelsAt m msg k inp ls rest) :
    Decodes msg k inp ((ls.map (fun l => l ++ [46])).flatten) rest := by
  induction h with
  | root k rest => exact .stop k rest
  | label k len l inp ls rest h1 h2 h3 h4 _ ih =>
    have := Decodes.label k len l inp _ rest h1 h2 (by rw [h2]; exact h4) ih
    simpa using this
  | pointer k hi lo ls rest rest' h1 h2 _ ih => exact .pointer k hi lo _ rest rest' h1 h2 ih

theorem Spec.Decodes.labelsAt {msg inp t rest : Bytes} {k : Nat} (h : Decodes msg k inp t rest) :
    ∃ ls, LabelsAt 255 msg k inp ls rest ∧ t = (ls.map (fun l => l ++ [46])).flatten := by
  induction h with
  | stop k rest => exact ⟨[], .root k rest, rfl⟩
  | label k len l inp text rest h1 h2 h3 _ ih =>
    obtain ⟨ls, a, rfl⟩ := ih
    have := len.toNat_lt
    exact ⟨l :: ls, .label k len l inp ls rest h1 h2 (by omega) (by rw [← h2]; exact h3) a, by simp⟩
  | pointer k hi lo text rest rest' h1 h2 _ ih =>
    obtain ⟨ls, a, rfl⟩ := ih
    exact ⟨ls, .pointer k hi lo ls rest rest' h1 h2 a, rfl⟩

theorem Spec.LabelsAt.nonempty {m : Nat} {msg inp rest : Bytes} {k : Nat} {ls : List Bytes} (h : LabelsAt m msg k inp ls rest) :
    ∀ l ∈ ls, l ≠ [] := by
  induction h with
  | root => simp
  | label k len l inp ls rest h1 _ _ _ _ ih => intro x hx; exact (List.mem_cons.mp hx).elim (fun e => e ▸ h1) (ih x)
  | pointer k hi lo ls rest rest' _ _ _ ih => exact ih

theorem Spec.LabelsAt.shorter {m m' : Nat} {msg inp rest : Bytes} {k : Nat} {ls : List Bytes} (h : LabelsAt m msg k inp ls rest)
    (hl : ∀ l ∈ ls, l.length ≤ m') : LabelsAt m' msg k inp ls rest := by
  induction h with
  | root k rest => exact .root k rest
  | label k len l inp ls rest h1 h2 _ h4 _ ih => exact .label k len l inp ls rest h1 h2 (hl l (by simp)) h4 (ih fun x hx => hl x (by simp [hx]))
  | pointer k hi lo ls rest rest' h1 h2 _ ih => exact .pointer k hi lo ls rest rest' h1 h2 (ih hl)

theorem foldCase_char (c : UInt8) : (33 ≤ (foldCase c).toNat ∧ (foldCase c).toNat ≤ 126 ∧ (foldCase c).toNat ≠ 34 ∧ (foldCase c).toNat ≠ 46 ∧
    ¬ (65 ≤ (foldCase c).toNat ∧ (foldCase c).toNat ≤ 90)) ↔ (33 ≤ c.toNat ∧ c.toNat ≤ 126 ∧ c.toNat ≠ 34 ∧ c.toNat ≠ 46) := by
  unfold foldCase
  have := c.toNat_lt
  split
  · rename_i h
    simp only [Char.reduceToNat] at h
    rw [UInt8.toNat_add]
    simp only [UInt8.reduceToNat]
    omega
  · rename_i h
    simp only [Char.reduceToNat] at h
    omega

theorem text_lowerLabels (ls : List Bytes) : (text ls).map foldCase = text (lowerLabels ls) := by
  unfold text lowerLabels
  by_cases h : ls = []
  · subst h; rfl
  · rw [if_neg h, if_neg (by simpa using h)]
    simp only [List.map_flatten, List.map_map]
    congr 1
    apply List.map_congr_left
    intro l _
    simp [foldCase]

theorem nameText_labels {ls : List Bytes} (hn : ∀ l ∈ ls, l ≠ []) (hd : NoDots ls) :
    NameText (text ls) ↔ (∀ l ∈ lowerLabels ls, Label l) ∧ (text ls).length ≤ 255 := by
  constructor
  · intro h
    refine ⟨?_, h.short⟩
    intro l hl
    obtain ⟨x, hx, rfl⟩ := List.mem_map.mp hl
    have hne : ls ≠ [] := List.ne_nil_of_mem hx
    obtain ⟨a, b, rfl⟩ := List.append_of_mem hx
    have ht : text (a ++ x :: b) = (a.map (fun l => l ++ [46])).flatten ++ x ++ (46 :: (b.map (fun l => l ++ [46])).flatten) := by
      rw [text, if_neg hne]; simp
    refine ⟨by simpa using hn x hx, ?_, ?_⟩
    · rw [List.length_map]
      exact h.labels _ x _ ht (hd x hx)
    · intro c hc
      obtain ⟨y, hy, rfl⟩ := List.mem_map.mp hc
      rw [foldCase_char]
      have hp := h.printable y (by rw [ht]; simp [hy])
      refine ⟨hp.1, hp.2.1, hp.2.2, fun e => hd x hx ?_⟩
      rw [← UInt8.ofNat_toNat (x := y), e] at hy
      exact hy
  · rintro ⟨h1, h2⟩
    have h3 := text_nameText h1 (by rw [← text_lowerLabels]; simpa using h2)
    rw [← text_lowerLabels] at h3
    by_cases hne : ls = []
    · subst hne; simpa [text, foldCase] using h3
    refine ⟨⟨?_, ?_⟩, h2, ?_, ?_⟩
    · exact (text ls).dropLast
    · rw [text, if_neg hne]
      obtain ⟨a, b, rfl⟩ : ∃ a b, ls = a ++ [b] := ⟨ls.dropLast, ls.getLast hne, (List.dropLast_concat_getLast hne).symm⟩
      simp [List.dropLast_append_of_ne_nil, ← List.append_assoc]
    · intro c hc
      rw [text, if_neg hne] at hc
      obtain ⟨z, hz, hc⟩ := List.mem_flatten.mp hc
      obtain ⟨l, hl, rfl⟩ := List.mem_map.mp hz
      rcases List.mem_append.mp hc with hc | hc
      · have := (foldCase_char c).mp ((h1 (l.map foldCase) (List.mem_map.mpr ⟨l, hl, rfl⟩)).chars _ (List.mem_map.mpr ⟨c, hc, rfl⟩))
        exact ⟨this.1, this.2.1, this.2.2.1⟩
      · simp at hc; subst hc; decide
    · intro pre l post he hl
      have := h3.labels (pre.map foldCase) (l.map foldCase) (post.map foldCase) (by rw [he]; simp) (by
        intro hm
        obtain ⟨c, hc, e⟩ := List.mem_map.mp hm
        unfold foldCase at e
        split at e
        · rename_i h
          simp only [Char.reduceToNat] at h
          have := congrArg UInt8.toNat e
          rw [UInt8.toNat_add] at this
          simp at this
          omega
        · exact hl (e ▸ hc))
      simpa using this

theorem not_nameAt_long {msg inp rest : Bytes} {ls : List Bytes} {len : UInt8} (h1 : 63 < len.toNat) (h2 : len.toNat < 192) :
    ¬ NameAt msg (len :: inp) ls rest := by
  intro h
  unfold NameAt at h
  cases h with
  | root => simp at h1
  | label k _ l inp ls rest a b c => omega
  | pointer k hi lo ls rest rest' a => omega

end Dnssec
