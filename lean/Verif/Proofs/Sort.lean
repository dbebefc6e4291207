import Verif.Model.Sort

/-! # Sorting -/

namespace Dnssec

variable {α : Type} (cmp : α → α → Ordering)

theorem insertBy_perm (x : α) : ∀ l : List α, (insertBy cmp x l).Perm (x :: l)
  | [] => .refl _
  | y :: ys => by
    rw [insertBy]
    split
    · exact ((insertBy_perm x ys).cons y).trans (.swap x y ys)
    · exact .refl _

theorem sortBy_perm : ∀ l : List α, (sortBy cmp l).Perm l
  | [] => .refl _
  | x :: xs => (insertBy_perm cmp x _).trans ((sortBy_perm xs).cons x)

variable {cmp} (hswap : ∀ a b, cmp b a = (cmp a b).swap) (htrans : ∀ {a b c}, cmp a b ≠ .gt → cmp b c ≠ .gt → cmp a c ≠ .gt)

include hswap htrans in
theorem insertBy_sorted (x : α) : ∀ l : List α, l.Pairwise (fun a b => cmp a b ≠ .gt) →
    (insertBy cmp x l).Pairwise (fun a b => cmp a b ≠ .gt)
  | [], _ => by simp [insertBy]
  | y :: ys, h => by
    rw [List.pairwise_cons] at h
    rw [insertBy]
    split
    · rename_i hgt
      rw [List.pairwise_cons]
      refine ⟨?_, insertBy_sorted x ys h.2⟩
      intro z hz
      rcases List.mem_cons.mp ((insertBy_perm cmp x ys).mem_iff.mp hz) with rfl | hz
      · rw [hswap, hgt]; simp
      · exact h.1 z hz
    · rename_i hle
      rw [List.pairwise_cons]
      refine ⟨?_, List.pairwise_cons.mpr h⟩
      intro z hz
      rcases List.mem_cons.mp hz with rfl | hz
      · exact hle
      · exact htrans hle (h.1 z hz)

include hswap htrans in
theorem sortBy_sorted : ∀ l : List α, (sortBy cmp l).Pairwise (fun a b => cmp a b ≠ .gt)
  | [] => .nil
  | x :: xs => insertBy_sorted hswap htrans x _ (sortBy_sorted xs)

/-- A sorted permutation is unique when only equal elements compare `Equal`. -/
theorem sorted_perm_unique (hswap : ∀ a b, cmp b a = (cmp a b).swap) (heq : ∀ a b, cmp a b = .eq → a = b) :
    ∀ {l m : List α}, l.Perm m → l.Pairwise (fun a b => cmp a b ≠ .gt) → m.Pairwise (fun a b => cmp a b ≠ .gt) → l = m := by
  intro l m hp hl hm
  exact List.Perm.eq_of_pairwise (le := fun a b => cmp a b ≠ .gt)
    (fun a b _ _ h1 h2 => heq a b (by
      rw [hswap a b] at h2
      cases hc : cmp a b with
      | eq => rfl
      | lt => rw [hc] at h2; exact absurd rfl h2
      | gt => exact absurd hc h1)) hl hm hp

end Dnssec
