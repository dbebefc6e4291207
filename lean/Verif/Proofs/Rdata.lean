import Verif.Proofs.NameWire
import Verif.Proofs.Bitmap
import Verif.Proofs.Txt

/-! # The writers produce the specified forms -/

namespace Dnssec

open Spec

theorem cutAtDots_eq (s : Bytes) : cutAtDots s = splitDot s := by
  induction s with
  | nil => rfl
  | cons c s ih =>
    rw [cutAtDots, splitDot, ih]
    cases h : splitDot s with
    | nil => exact absurd h (splitDot_ne_nil s)
    | cons p ps => simp only []

theorem lower_eq_map_fold (s : Bytes) : lower s = s.map foldCase :=
  List.map_congr_left (fun c _ => lowerByte_eq_foldCase c)

theorem writeName_eq_nameWire (s : Bytes) : writeName s = nameWire s := by
  unfold writeName nameWire
  simp only [cutAtDots_eq, ← lower_eq_map_fold]
  have : lower s = [dot] ↔ s = [46] := by
    match s with
    | [] => simp [lower]
    | [b] => simp only [lower, List.map_cons, List.map_nil, List.cons.injEq, and_true]; exact lowerByte_dot b
    | _ :: _ :: _ => simp [lower]
  simp only [this]

theorem nameWire_labels {n : Name} {ls : List Bytes} (h : HasLabels n ls) : nameWire n.bytes = wire ls := by
  rw [← writeName_eq_nameWire, h.writeName]

/-! ### TXT -/

theorem charStrings_cons (s : Bytes) (ss : List Bytes) : charStrings (s :: ss) = UInt8.ofNat s.length :: (s ++ charStrings ss) := by
  simp [charStrings]

theorem pieces255_short {d : Bytes} (h : d.length ≤ 255) : pieces255 d = [d] := by
  unfold pieces255
  rw [show max 1 ((d.length + 254) / 255) = 1 by omega]
  simp [List.range_succ, List.take_of_length_le h]

theorem pieces255_long {d : Bytes} (h : 255 < d.length) : pieces255 d = d.take 255 :: pieces255 (d.drop 255) := by
  unfold pieces255
  rw [List.length_drop, show max 1 ((d.length + 254) / 255) = max 1 ((d.length - 255 + 254) / 255) + 1 by omega,
    List.range_succ_eq_map, List.map_cons, List.map_map]
  simp only [Nat.mul_zero, List.drop_zero, List.cons.injEq, true_and]
  apply List.map_congr_left
  intro i _
  simp only [Function.comp_apply, Nat.succ_eq_add_one, List.drop_drop]
  congr 2
  omega

theorem txtV_pieces (k : Nat) : ∀ d : Bytes, d.length / 255 = k → d ≠ [] → charStrings (pieces255 d) = txtV d := by
  induction k with
  | zero =>
    intro d hk h0
    rw [pieces255_short (by omega), txtV_short h0 (by omega)]
    simp [charStrings]
  | succ k ih =>
    intro d hk h0
    by_cases hl : d.length = 255
    · rw [pieces255_short (by omega), txtV_short h0 (by omega)]
      simp [charStrings]
    · rw [pieces255_long (by omega), txtV_long (by omega), charStrings_cons, ih (d.drop 255) (by simp; omega)
        (by intro he; have := congrArg List.length he; simp at this; omega)]
      rw [List.length_take, Nat.min_eq_left (by omega)]
      rfl

theorem txt_written (d : Bytes) : txtLenByte d :: txtWriteLoop d.length d = charStrings (pieces255 d) := by
  by_cases h : d = []
  · subst h; rfl
  · rw [txtV_pieces _ d rfl h, ← txtWrite_eq h]; rfl

/-! ### Bitmaps -/

theorem strip_append (w : Bytes) (k : Nat) : (w ++ List.replicate k (0 : UInt8)).reverse.dropWhile (· == 0) = w.reverse.dropWhile (· == 0) := by
  rw [List.reverse_append, List.reverse_replicate]
  induction k with
  | zero => rfl
  | succ k ih => rw [List.replicate_succ, List.cons_append, List.dropWhile_cons_of_pos (by simp), ih]

theorem writeWindow_block {c : Bytes} (hc : c.length = 32) (k : Nat) :
    writeWindow k c = (let block := (c.reverse.dropWhile (· == 0)).reverse
      if block = [] then [] else UInt8.ofNat k :: UInt8.ofNat block.length :: block) := by
  rcases writeWindow_eq hc k with ⟨h1, h2⟩ | ⟨w, h1, _, _, ⟨init, last, h4, h5⟩, h6, _⟩
  · have := strip_append [] 32
    rw [List.nil_append] at this
    rw [h2, h1, this]; rfl
  · have : (c.reverse.dropWhile (· == 0)).reverse = w := by
      rw [h1, strip_append, h4, List.reverse_append, List.reverse_singleton, List.singleton_append,
        List.dropWhile_cons_of_neg (by simpa using h5)]
      simp
    simp only [this, h6]
    rw [if_neg (by rw [h4]; simp)]

theorem chunks32_range (n : Nat) : ∀ (l : Bytes) (fuel : Nat), l.length = 32 * n → l.length ≤ fuel →
    chunks32 fuel l = (List.range n).map (fun w => (l.drop (32 * w)).take 32) := by
  induction n with
  | zero =>
    intro l fuel h _
    have : l = [] := List.length_eq_zero_iff.mp (by omega)
    subst this
    cases fuel <;> simp [chunks32]
  | succ n ih =>
    intro l fuel h hf
    cases fuel with
    | zero => omega
    | succ fuel =>
      have hne : l.isEmpty = false := by
        rw [List.isEmpty_eq_false_iff]; intro he; subst he; simp at h
      rw [chunks32, hne, List.range_succ_eq_map, List.map_cons, List.map_map, ih (l.drop 32) fuel (by simp; omega) (by simp; omega)]
      simp only [Bool.false_eq_true, if_false, Nat.mul_zero, List.drop_zero, List.cons.injEq, true_and]
      apply List.map_congr_left
      intro i _
      simp only [Function.comp_apply, Nat.succ_eq_add_one, List.drop_drop]
      congr 2
      omega

theorem zipIdx_map_range {α β : Type} (f : Nat → α) (g : α × Nat → β) (n : Nat) :
    (((List.range n).map f).zipIdx.map g) = (List.range n).map (fun i => g (f i, i)) := by
  apply List.ext_getElem (by simp)
  intro i h1 h2
  simp

theorem flatten_map_filterMap {α β γ : Type} (l : List α) (h : α → Option β) (k : β → List γ) :
    ((l.filterMap h).map k).flatten = (l.map (fun x => match h x with | none => [] | some y => k y)).flatten := by
  induction l with
  | nil => rfl
  | cons a l ih =>
    rw [List.filterMap_cons]
    cases ha : h a with
    | none => simp [ha, ih]
    | some y => simp [ha, ih]

theorem writeBitmap_windows (t : Bytes) (ht : t.length = 8192) : writeNsecTypesBitmap t = windows (maskWindows t) := by
  unfold writeNsecTypesBitmap windows maskWindows
  rw [chunks32_range 256 t t.length (by omega) (Nat.le_refl _), zipIdx_map_range, flatten_map_filterMap]
  congr 1
  apply List.map_congr_left
  intro w hw
  rw [List.mem_range] at hw
  have := writeWindow_block (c := (t.drop (32 * w)).take 32) (by simp; omega) w
  simp only [this]
  split <;> rfl

end Dnssec
