import Verif.Model.Ser

/-! # Lemmas about big-endian integers, byte comparison and the primitive readers -/

namespace Dnssec

@[simp] theorem be16_length (x : UInt16) : (be16 x).length = 2 := rfl
@[simp] theorem be32_length (x : UInt32) : (be32 x).length = 4 := rfl

theorem ofBe16_be16 (x : UInt16) :
    ofBe16 (UInt8.ofNat (x.toNat / 256)) (UInt8.ofNat (x.toNat % 256)) = x := by
  have := x.toNat_lt
  rw [← UInt16.toNat_inj]
  simp only [ofBe16, UInt8.toNat_ofNat', UInt16.toNat_ofNat']
  omega

theorem ofBe32_be32 (x : UInt32) :
    ofBe32 (UInt8.ofNat (x.toNat / 16777216)) (UInt8.ofNat (x.toNat / 65536 % 256))
      (UInt8.ofNat (x.toNat / 256 % 256)) (UInt8.ofNat (x.toNat % 256)) = x := by
  have := x.toNat_lt
  rw [← UInt32.toNat_inj]
  simp only [ofBe32, UInt8.toNat_ofNat', UInt32.toNat_ofNat']
  omega

@[simp] theorem readU16_be16 (x : UInt16) (r : Bytes) : readU16 (be16 x ++ r) = .ok (x, r) := by
  simp [be16, readU16, ofBe16_be16]

@[simp] theorem readU32_be32 (x : UInt32) (r : Bytes) : readU32 (be32 x ++ r) = .ok (x, r) := by
  simp [be32, readU32, ofBe32_be32]

@[simp] theorem readU8_cons (x : UInt8) (r : Bytes) : readU8 (x :: r) = .ok (x, r) := rfl

theorem be16_inj {x y : UInt16} (h : be16 x = be16 y) : x = y := by
  have a := readU16_be16 x []
  rw [h, readU16_be16] at a
  simpa using a.symm

theorem be32_inj {x y : UInt32} (h : be32 x = be32 y) : x = y := by
  have a := readU32_be32 x []
  rw [h, readU32_be32] at a
  simpa using a.symm

theorem be16_ofBe16 (a b : UInt8) : be16 (ofBe16 a b) = [a, b] := by
  have := a.toNat_lt; have := b.toNat_lt
  simp only [be16, ofBe16, UInt16.toNat_ofNat', List.cons.injEq, ← UInt8.toNat_inj, UInt8.toNat_ofNat', and_true]
  omega

theorem be32_ofBe32 (a b c d : UInt8) : be32 (ofBe32 a b c d) = [a, b, c, d] := by
  have := a.toNat_lt; have := b.toNat_lt; have := c.toNat_lt; have := d.toNat_lt
  simp only [be32, ofBe32, UInt32.toNat_ofNat', List.cons.injEq, ← UInt8.toNat_inj, UInt8.toNat_ofNat', and_true]
  omega

/-! ### comparison -/

theorem compare_u8 (a b : UInt8) : compare a b = compare a.toNat b.toNat := by
  show compareOfLessAndEq a b = compareOfLessAndEq a.toNat b.toNat
  simp only [compareOfLessAndEq, UInt8.lt_iff_toNat_lt, UInt8.toNat_inj]

theorem compare_u16 (a b : UInt16) : compare a b = compare a.toNat b.toNat := by
  show compareOfLessAndEq a b = compareOfLessAndEq a.toNat b.toNat
  simp only [compareOfLessAndEq, UInt16.lt_iff_toNat_lt, UInt16.toNat_inj]

theorem compare_u32 (a b : UInt32) : compare a b = compare a.toNat b.toNat := by
  show compareOfLessAndEq a b = compareOfLessAndEq a.toNat b.toNat
  simp only [compareOfLessAndEq, UInt32.lt_iff_toNat_lt, UInt32.toNat_inj]

@[simp] theorem cmpBytes_cons (a b : UInt8) (as bs : Bytes) :
    cmpBytes (a :: as) (b :: bs) = (compare a b).then (cmpBytes as bs) := List.compareLex_cons_cons

@[simp] theorem cmpBytes_nil_nil : cmpBytes [] [] = .eq := rfl
@[simp] theorem cmpBytes_nil_cons (a : UInt8) (as : Bytes) : cmpBytes [] (a :: as) = .lt := rfl
@[simp] theorem cmpBytes_cons_nil (a : UInt8) (as : Bytes) : cmpBytes (a :: as) [] = .gt := rfl

instance : Std.TransCmp cmpBytes := inferInstanceAs (Std.TransCmp (List.compareLex compare))
instance : Std.LawfulEqCmp cmpBytes := inferInstanceAs (Std.LawfulEqCmp (List.compareLex compare))

theorem cmpBytes_eq_iff {a b : Bytes} : cmpBytes a b = .eq ↔ a = b := Std.LawfulEqCmp.compare_eq_iff_eq

theorem cmpBytes_append {a b : Bytes} (h : a.length = b.length) (r s : Bytes) :
    cmpBytes (a ++ r) (b ++ s) = (cmpBytes a b).then (cmpBytes r s) := by
  induction a generalizing b with
  | nil => cases b with
    | nil => simp
    | cons => simp at h
  | cons x xs ih => cases b with
    | nil => simp at h
    | cons y ys => simp [ih (by simpa using h), Ordering.then_assoc]

theorem compare_nat_lex (a b c d m : Nat) (hb : b < m) (hd : d < m) :
    compare (a * m + b) (c * m + d) = (compare a c).then (compare b d) := by
  rcases Nat.lt_trichotomy a c with h | h | h
  · have : a * m + b < c * m + d := by
      have := Nat.mul_le_mul_right m h; rw [Nat.succ_mul] at this; omega
    rw [Nat.compare_eq_lt.mpr this, Nat.compare_eq_lt.mpr h]; rfl
  · subst h
    rw [Nat.compare_eq_eq.mpr rfl]
    show _ = compare b d
    rcases Nat.lt_trichotomy b d with h | h | h
    · rw [Nat.compare_eq_lt.mpr h, Nat.compare_eq_lt.mpr (by omega)]
    · subst h; simp
    · rw [Nat.compare_eq_gt.mpr h, Nat.compare_eq_gt.mpr (by omega)]
  · have : c * m + d < a * m + b := by
      have := Nat.mul_le_mul_right m h; rw [Nat.succ_mul] at this; omega
    rw [Nat.compare_eq_gt.mpr this, Nat.compare_eq_gt.mpr h]; rfl

theorem cmpBytes_be16 (x y : UInt16) : cmpBytes (be16 x) (be16 y) = compare x y := by
  have hx := x.toNat_lt; have hy := y.toNat_lt
  simp only [be16, cmpBytes_cons, cmpBytes_nil_nil, compare_u8, compare_u16, UInt8.toNat_ofNat', Ordering.then_eq]
  have e : ∀ z : Nat, z < 2 ^ 16 → z / 256 % 2 ^ 8 = z / 256 := by intro z hz; omega
  have e2 : ∀ z : Nat, z % 256 % 2 ^ 8 = z % 256 := by intro z; omega
  rw [e _ hx, e _ hy, e2, e2, ← compare_nat_lex _ _ _ _ 256 (by omega) (by omega)]
  congr 1 <;> omega

theorem cmpBytes_be32 (x y : UInt32) : cmpBytes (be32 x) (be32 y) = compare x y := by
  have hx := x.toNat_lt; have hy := y.toNat_lt
  simp only [be32, cmpBytes_cons, cmpBytes_nil_nil, compare_u8, compare_u32, UInt8.toNat_ofNat', Ordering.then_eq]
  have e : ∀ z : Nat, z < 2 ^ 32 → z / 16777216 % 2 ^ 8 = z / 16777216 := by intro z hz; omega
  have e2 : ∀ z : Nat, z % 256 % 2 ^ 8 = z % 256 := by intro z; omega
  rw [e _ hx, e _ hy, e2, e2, e2, e2, e2, e2,
    ← compare_nat_lex (x.toNat / 256 % 256) _ _ _ 256 (by omega) (by omega),
    ← compare_nat_lex (x.toNat / 65536 % 256) _ _ _ 65536 (by omega) (by omega),
    ← compare_nat_lex _ _ _ _ 16777216 (by omega) (by omega)]
  congr 1 <;> omega

theorem cmpBytes_singleton (x y : UInt8) : cmpBytes [x] [y] = compare x y := by simp

end Dnssec
