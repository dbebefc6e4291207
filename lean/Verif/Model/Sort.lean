import Verif.Model.Basic

/-! # Sorting

`slice::sort_unstable` is modelled by insertion sort. For a comparison that is a total order on the values compared
(`Equal` only on equal values) every sorting algorithm returns the same list; `Proofs/Sort.lean` proves this
(`sorted_perm_unique`) for the orders the crate sorts by. -/

namespace Dnssec

/-- Insert into a sorted list. -/
def insertBy {α : Type} (cmp : α → α → Ordering) (x : α) : List α → List α
  | [] => [x]
  | y :: ys => if cmp x y = .gt then y :: insertBy cmp x ys else x :: y :: ys

/-- `v.sort_unstable_by(cmp)`. -/
def sortBy {α : Type} (cmp : α → α → Ordering) : List α → List α
  | [] => []
  | x :: xs => insertBy cmp x (sortBy cmp xs)

/-- `Vec::dedup`: drop elements equal to their predecessor. -/
def dedup {α : Type} [DecidableEq α] : List α → List α
  | [] => []
  | [x] => [x]
  | x :: y :: ys => if x = y then dedup (y :: ys) else x :: dedup (y :: ys)

end Dnssec
