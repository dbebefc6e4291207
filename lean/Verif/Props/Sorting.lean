import Verif.Proofs.Sorting
import Verif.Props.Denials
import Verif.Props.Order

/-! # C96: the result does not depend on how the sorting algorithm orders equal elements -/

namespace Dnssec.Props

open Dnssec Spec

variable {dbg : Bool} {p p' : Platform} {inp : List RR}

/-- **C96.** Sorting the records of a set (src/validation.rs:95) leaves no choice to the sorting algorithm. -/
theorem C96_records_one_way (l m m' : List RR) (h : IsSorted RR.partialCmp l m) (h' : IsSorted RR.partialCmp l m') : m = m' :=
  sorted_perm_unique (fun a b => (C13_partial_cmp_total_order a b a).2.1) (fun a b => (C13_partial_cmp_total_order a b a).1.mp)
    (h.1.trans h'.1.symm) h.2 h'.2

/-- **C96.** Nor does sorting the names of signers (src/query.rs:257), so the queries made do not depend on it. -/
theorem C96_names_one_way (l m m' : List Name) (h : IsSorted Name.cmp l m) (h' : IsSorted Name.cmp l m') : m = m' :=
  sorted_perm_unique (fun a b => cmpBytes_swap' a.bytes b.bytes)
    (fun a b e => by cases a; cases b; exact congrArg Name.mk (cmpBytes_eq_iff.mp e)) (h.1.trans h'.1.symm) h.2 h'.2

/-- The two sorts of the model are among those considered here. -/
theorem C96_model_sorts (l : List RR) (ns : List Name) :
    IsSorted RR.partialCmp l (sortBy RR.partialCmp l) ∧ IsSorted Name.cmp ns (sortBy Name.cmp ns) :=
  ⟨⟨sortBy_perm _ l, sortBy_sorted (fun a b => (C13_partial_cmp_total_order a b a).2.1)
      (fun {a b c} => (C13_partial_cmp_total_order a b c).2.2) l⟩,
   ⟨sortBy_perm _ ns, sortBy_sorted (fun a b => cmpBytes_swap' a.bytes b.bytes)
      (fun {a b c} h1 h2 => Std.TransCmp.isLE_trans (cmp := cmpBytes) (a := a.bytes) (b := b.bytes) (c := c.bytes)
        (Ordering.isLE_iff_ne_gt.mpr h1) (Ordering.isLE_iff_ne_gt.mpr h2) |> Ordering.isLE_iff_ne_gt.mp) ns⟩⟩

/-- **C96, what holds without conditions.** Two builds that sort differently come to the same result, or one rejects a proof as invalid
that the other accepts. In particular, if both accept, they verify the same records, in the same order, with the same window and TTL. -/
theorem C96_same_or_rejected_partial (h : SameButSorting p p') (fuel : Nat) :
    verifyRRStream dbg p fuel inp = verifyRRStream dbg p' fuel inp ∨
    (∃ v, verifyRRStream dbg p fuel inp = some (.ok v) ∧ verifyRRStream dbg p' fuel inp = some (.err .invalid)) ∨
    (∃ v, verifyRRStream dbg p fuel inp = some (.err .invalid) ∧ verifyRRStream dbg p' fuel inp = some (.ok v)) :=
  verifyRRStream_sorting h fuel

/-- **C96.** They come to the same result for all inputs in which no two zones have expansions of wildcards with the same next closer name.
Missing: the other inputs, for which it is false (`C96_fails_for_shared_name`). -/
theorem C96_same_result_partial (h : SameButSorting p p') (ho : OwnDenials (codeCheck p) p inp) (fuel : Nat) :
    verifyRRStream dbg p fuel inp = verifyRRStream dbg p' fuel inp := by
  rcases verifyRRStream_sorting (dbg := dbg) (inp := inp) h fuel with e | ⟨v, a, b⟩ | ⟨v, a, b⟩
  · exact e
  · rw [verifyRRStream_sorting_accepts h ho a] at b; simp at b
  · rw [verifyRRStream_sorting_accepts h.symm (ownDenials_of_same h ho) b] at a; simp at a

/-- The toy platform with a sorting algorithm that puts equal elements in the opposite order. -/
def otherSort : Platform :=
  { wPlatform with
    sortNeeds := fun l => sortBy (fun a b : Need => nsecOrd a.name b.name) l.reverse
    sortNeeds_perm := fun l => (sortBy_perm _ _).trans (List.reverse_perm l)
    sortNeeds_sorted := fun _ => sortBy_sorted (fun (a b : Need) => nsecOrd_swap a.name b.name) (fun h1 h2 => nsecOrd_trans h1 h2) _ }

/-- A stream with an address and a text of `x.c.`, both from `*.c.`, that need the denial of the same name. -/
def twoNeeds : List RR := wildStream "a.c." "z.c." [1] ++ [.txt ⟨⟨ascii "x.c."⟩, [104, 105]⟩, wSig "x.c." 16 1 "c."]

/-- The conditions of `C96_same_result_partial` hold of a stream with two needs that compare equal, of which the two builds end up with
different lists. -/
example : SameButSorting wPlatform otherSort ∧ OwnDenials (codeCheck wPlatform) wPlatform twoNeeds ∧
    verifyRRStream false wPlatform 5 twoNeeds =
      some (.ok ⟨[wA "x.c.", .txt ⟨⟨ascii "x.c."⟩, [104, 105]⟩], 1000000000, 2000000000, 3600⟩) ∧
    wPlatform.sortNeeds [⟨ascii "x.c.", ⟨ascii "c."⟩, 1⟩, ⟨ascii "x.c.", ⟨ascii "c."⟩, 16⟩] ≠
      otherSort.sortNeeds [⟨ascii "x.c.", ⟨ascii "c."⟩, 1⟩, ⟨ascii "x.c.", ⟨ascii "c."⟩, 16⟩] := by
  refine ⟨⟨rfl, rfl, rfl, rfl, rfl, rfl, rfl⟩, ?_, by decide +kernel, by decide +kernel⟩
  have hexp : ∀ s ∈ twoNeeds.filterMap (fun | .rrsig s => some s | _ => none),
      (s.labels ≠ s.name.labels ∧ s.ty ≠ 47) → s.keyName = ⟨ascii "c."⟩ := by decide +kernel
  have ms : ∀ s, RR.rrsig s ∈ twoNeeds → s ∈ twoNeeds.filterMap (fun | .rrsig s => some s | _ => none) :=
    fun s h => List.mem_filterMap.mpr ⟨_, h, rfl⟩
  intro z s z' s' _ hs _ hx _ hs' _ hx' name _ _
  obtain ⟨a, b, _⟩ := mem_sigsBy.mp hs.1
  obtain ⟨a', b', _⟩ := mem_sigsBy.mp hs'.1
  rw [← b, ← b', hexp s (ms s a) hx, hexp s' (ms s' a') hx']

/-- Sorting different orders of two records gives one list. -/
example : IsSorted RR.partialCmp [wA "b.", wA "a."] [wA "a.", wA "b."] ∧ IsSorted Name.cmp [⟨ascii "b."⟩, ⟨ascii "a."⟩]
    [⟨ascii "a."⟩, ⟨ascii "b."⟩] := by
  constructor <;> exact ⟨by decide +kernel, by decide +kernel⟩

/-- The stream of `C29_fails_for_shared_name`. -/
def sharedStream : List RR :=
  wZone "." 0 ++ wDelegation "." "c." 1 ++ wDelegation "." "b.c." 2 ++ sharedAddr ++ sharedNsec ++ sharedText

/-- **C96 is false**: a stream in which two zones need the denial of the same name is accepted or rejected depending on which of the two
the sorting algorithm puts last. -/
theorem C96_fails_for_shared_name : SameButSorting wPlatform otherSort ∧
    verifyRRStream false wPlatform 5 sharedStream =
      some (.ok ⟨[wA "x.b.c.", .txt ⟨⟨ascii "x.b.c."⟩, [104, 105]⟩], 1000000000, 2000000000, 3600⟩) ∧
    verifyRRStream false otherSort 5 sharedStream = some (.err .invalid) := by
  refine ⟨⟨rfl, rfl, rfl, rfl, rfl, rfl, rfl⟩, ?_, ?_⟩ <;> decide +kernel

end Dnssec.Props
