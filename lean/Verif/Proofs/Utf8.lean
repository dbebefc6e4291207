import Verif.Spec.Utf8

/-! # `from_utf8` accepts exactly UTF-8 -/

namespace Dnssec

open Spec

theorem ofNat_toNat_eq {b : UInt8} {n : Nat} (h : n = b.toNat) : UInt8.ofNat n = b := by
  subst h; simp

theorem utf8Cont_iff {b : UInt8} : utf8Cont b = true ↔ 128 ≤ b.toNat ∧ b.toNat ≤ 191 := by
  unfold utf8Cont
  simp only [Bool.and_eq_true, decide_eq_true_eq, UInt8.le_iff_toNat_le]
  exact Iff.rfl

theorem utf8Encode_two {b0 b1 : UInt8} (h0 : 0xC2 ≤ b0.toNat ∧ b0.toNat ≤ 0xDF) (h1 : 128 ≤ b1.toNat ∧ b1.toNat ≤ 191) :
    Scalar ((b0.toNat - 0xC0) * 64 + (b1.toNat - 0x80)) ∧ utf8Encode ((b0.toNat - 0xC0) * 64 + (b1.toNat - 0x80)) = [b0, b1] := by
  refine ⟨⟨by omega, by omega⟩, ?_⟩
  unfold utf8Encode
  rw [if_neg (by omega), if_pos (by omega), ofNat_toNat_eq (b := b0) (by omega), ofNat_toNat_eq (b := b1) (by omega)]

theorem utf8Encode_three {b0 b1 b2 : UInt8} (h0 : 0xE0 ≤ b0.toNat ∧ b0.toNat ≤ 0xEF) (h1 : 128 ≤ b1.toNat ∧ b1.toNat ≤ 191)
    (h2 : 128 ≤ b2.toNat ∧ b2.toNat ≤ 191) (h3 : ¬ (b0.toNat = 0xE0 ∧ b1.toNat < 0xA0)) (h4 : ¬ (b0.toNat = 0xED ∧ 0xA0 ≤ b1.toNat)) :
    Scalar ((b0.toNat - 0xE0) * 4096 + (b1.toNat - 0x80) * 64 + (b2.toNat - 0x80)) ∧
    utf8Encode ((b0.toNat - 0xE0) * 4096 + (b1.toNat - 0x80) * 64 + (b2.toNat - 0x80)) = [b0, b1, b2] := by
  refine ⟨⟨by omega, by omega⟩, ?_⟩
  unfold utf8Encode
  rw [if_neg (by omega), if_neg (by omega), if_pos (by omega), ofNat_toNat_eq (b := b0) (by omega), ofNat_toNat_eq (b := b1) (by omega),
    ofNat_toNat_eq (b := b2) (by omega)]

theorem utf8Encode_four {b0 b1 b2 b3 : UInt8} (h0 : 0xF0 ≤ b0.toNat ∧ b0.toNat ≤ 0xF4) (h1 : 128 ≤ b1.toNat ∧ b1.toNat ≤ 191)
    (h2 : 128 ≤ b2.toNat ∧ b2.toNat ≤ 191) (h5 : 128 ≤ b3.toNat ∧ b3.toNat ≤ 191) (h3 : ¬ (b0.toNat = 0xF0 ∧ b1.toNat < 0x90))
    (h4 : ¬ (b0.toNat = 0xF4 ∧ 0x90 ≤ b1.toNat)) :
    Scalar ((b0.toNat - 0xF0) * 262144 + (b1.toNat - 0x80) * 4096 + (b2.toNat - 0x80) * 64 + (b3.toNat - 0x80)) ∧
    utf8Encode ((b0.toNat - 0xF0) * 262144 + (b1.toNat - 0x80) * 4096 + (b2.toNat - 0x80) * 64 + (b3.toNat - 0x80)) = [b0, b1, b2, b3] := by
  refine ⟨⟨by omega, by omega⟩, ?_⟩
  unfold utf8Encode
  rw [if_neg (by omega), if_neg (by omega), if_neg (by omega), ofNat_toNat_eq (b := b0) (by omega), ofNat_toNat_eq (b := b1) (by omega),
    ofNat_toNat_eq (b := b2) (by omega), ofNat_toNat_eq (b := b3) (by omega)]

theorem utf8Decode_sound {s : Bytes} : ∀ {cs : List Nat}, utf8Decode s = some cs →
    (∀ c ∈ cs, Scalar c) ∧ s = (cs.map utf8Encode).flatten := by
  have step : ∀ {pre rest : Bytes} {c : Nat} {cs : List Nat}, Scalar c ∧ utf8Encode c = pre →
      (∀ {ds : List Nat}, utf8Decode rest = some ds → (∀ c ∈ ds, Scalar c) ∧ rest = (ds.map utf8Encode).flatten) →
      (utf8Decode rest).map (c :: ·) = some cs → (∀ c ∈ cs, Scalar c) ∧ pre ++ rest = (cs.map utf8Encode).flatten := by
    intro pre rest c cs h1 ih h
    obtain ⟨ds, hd, rfl⟩ := Option.map_eq_some_iff.mp h
    obtain ⟨a, b⟩ := ih hd
    refine ⟨?_, ?_⟩
    · intro c' hc
      rcases List.mem_cons.mp hc with rfl | hc
      · exact h1.1
      · exact a c' hc
    · rw [List.map_cons, List.flatten_cons, h1.2, ← b]
  fun_induction utf8Decode s with
  | case1 => intro cs h; simp at h; subst h; simp
  | case2 b0 rest h0 ih =>
    intro cs h
    have h0' : b0.toNat < 128 := UInt8.lt_iff_toNat_lt.mp h0
    refine step (pre := [b0]) ⟨⟨by omega, by omega⟩, ?_⟩ ih h
    unfold utf8Encode
    rw [if_pos h0', ofNat_toNat_eq rfl]
  | case3 b0 h0 h1 b1 r hc ih =>
    intro cs h
    simp only [Bool.and_eq_true, decide_eq_true_eq, UInt8.le_iff_toNat_le] at h1
    exact step (pre := [b0, b1]) (utf8Encode_two h1 (utf8Cont_iff.mp hc)) ih h
  | case6 b0 h0 h1 h2 b1 b2 r hc ih =>
    intro cs h
    simp only [Bool.and_eq_true, decide_eq_true_eq, UInt8.le_iff_toNat_le, Bool.not_eq_true', Bool.and_eq_false_iff, beq_eq_false_iff_ne,
      decide_eq_false_iff_not, UInt8.lt_iff_toNat_lt] at h2 hc
    refine step (pre := [b0, b1, b2]) (utf8Encode_three h2 (utf8Cont_iff.mp hc.1.1.1) (utf8Cont_iff.mp hc.1.1.2) ?_ ?_) ih h
    · rintro ⟨x, y⟩
      rcases hc.1.2 with g | g
      · exact g (UInt8.toNat_inj.mp x)
      · exact g y
    · rintro ⟨x, y⟩
      rcases hc.2 with g | g
      · exact g (UInt8.toNat_inj.mp x)
      · exact g y
  | case9 b0 h0 h1 h2 h3 b1 b2 b3 r hc ih =>
    intro cs h
    simp only [Bool.and_eq_true, decide_eq_true_eq, UInt8.le_iff_toNat_le, Bool.not_eq_true', Bool.and_eq_false_iff, beq_eq_false_iff_ne,
      decide_eq_false_iff_not, UInt8.lt_iff_toNat_lt] at h3 hc
    refine step (pre := [b0, b1, b2, b3]) (utf8Encode_four h3 (utf8Cont_iff.mp hc.1.1.1.1) (utf8Cont_iff.mp hc.1.1.1.2)
      (utf8Cont_iff.mp hc.1.1.2) ?_ ?_) ih h
    · rintro ⟨x, y⟩
      rcases hc.1.2 with g | g
      · exact g (UInt8.toNat_inj.mp x)
      · exact g y
    · rintro ⟨x, y⟩
      rcases hc.2 with g | g
      · exact g (UInt8.toNat_inj.mp x)
      · exact g y
  | _ => intro cs h; simp at h

theorem ofNat_small {n : Nat} (h : n < 256) : (UInt8.ofNat n).toNat = n := by simp [UInt8.toNat_ofNat']; omega

theorem utf8Decode_encode {c : Nat} (h : Scalar c) (t : Bytes) : utf8Decode (utf8Encode c ++ t) = (utf8Decode t).map (c :: ·) := by
  obtain ⟨h1, h2⟩ := h
  have cont : ∀ n, n < 64 → utf8Cont (UInt8.ofNat (128 + n)) = true := fun n hn => by
    rw [utf8Cont_iff, ofNat_small (by omega)]; omega
  unfold utf8Encode
  split
  · rename_i hc
    rw [List.cons_append, List.nil_append, utf8Decode.eq_def]
    have : UInt8.ofNat c < 0x80 := UInt8.lt_iff_toNat_lt.mpr (by rw [ofNat_small (by omega)]; exact hc)
    simp only [this, if_true, ofNat_small (show c < 256 by omega)]
  · split
    · rename_i hc
      have e0 := ofNat_small (n := 0xC0 + c / 64) (by omega)
      have e1 := ofNat_small (n := 0x80 + c % 64) (by omega)
      have g0 : ¬ UInt8.ofNat (0xC0 + c / 64) < 0x80 := by
        rw [UInt8.lt_iff_toNat_lt, e0]; exact fun h => by have : (0x80 : UInt8).toNat = 128 := rfl; omega
      have g1 : (0xC2 ≤ UInt8.ofNat (0xC0 + c / 64) && UInt8.ofNat (0xC0 + c / 64) ≤ 0xDF) = true := by
        simp only [Bool.and_eq_true, decide_eq_true_eq, UInt8.le_iff_toNat_le, e0]
        have : (0xC2 : UInt8).toNat = 0xC2 := rfl
        have : (0xDF : UInt8).toNat = 0xDF := rfl
        omega
      rw [List.cons_append, List.cons_append, List.nil_append, utf8Decode.eq_def]
      simp only [g0, if_false, g1, if_true, cont _ (show c % 64 < 64 by omega), e0, e1]
      rw [show (0xC0 + c / 64 - 0xC0) * 64 + (0x80 + c % 64 - 0x80) = c by omega]
    · split
      · rename_i hd hc
        have e0 := ofNat_small (n := 0xE0 + c / 4096) (by omega)
        have e1 := ofNat_small (n := 0x80 + c / 64 % 64) (by omega)
        have e2 := ofNat_small (n := 0x80 + c % 64) (by omega)
        have g0 : ¬ UInt8.ofNat (0xE0 + c / 4096) < 0x80 := by
          rw [UInt8.lt_iff_toNat_lt, e0]; exact fun h => by have : (0x80 : UInt8).toNat = 128 := rfl; omega
        have g1 : ¬ (0xC2 ≤ UInt8.ofNat (0xE0 + c / 4096) && UInt8.ofNat (0xE0 + c / 4096) ≤ 0xDF) = true := by
          simp only [Bool.and_eq_true, decide_eq_true_eq, UInt8.le_iff_toNat_le, e0]
          have : (0xDF : UInt8).toNat = 0xDF := rfl
          omega
        have g2 : (0xE0 ≤ UInt8.ofNat (0xE0 + c / 4096) && UInt8.ofNat (0xE0 + c / 4096) ≤ 0xEF) = true := by
          simp only [Bool.and_eq_true, decide_eq_true_eq, UInt8.le_iff_toNat_le, e0]
          have : (0xE0 : UInt8).toNat = 0xE0 := rfl
          have : (0xEF : UInt8).toNat = 0xEF := rfl
          omega
        have g3 : (UInt8.ofNat (0xE0 + c / 4096) == 0xE0 && UInt8.ofNat (0x80 + c / 64 % 64) < 0xA0) = false := by
          rw [Bool.eq_false_iff]
          simp only [ne_eq, Bool.and_eq_true, beq_iff_eq, decide_eq_true_eq, UInt8.lt_iff_toNat_lt, ← UInt8.toNat_inj, e0, e1]
          have : (0xE0 : UInt8).toNat = 0xE0 := rfl
          have : (0xA0 : UInt8).toNat = 0xA0 := rfl
          omega
        have g4 : (UInt8.ofNat (0xE0 + c / 4096) == 0xED && 0xA0 ≤ UInt8.ofNat (0x80 + c / 64 % 64)) = false := by
          rw [Bool.eq_false_iff]
          simp only [ne_eq, Bool.and_eq_true, beq_iff_eq, decide_eq_true_eq, UInt8.le_iff_toNat_le, ← UInt8.toNat_inj, e0, e1]
          have : (0xED : UInt8).toNat = 0xED := rfl
          have : (0xA0 : UInt8).toNat = 0xA0 := rfl
          omega
        rw [List.cons_append, List.cons_append, List.cons_append, List.nil_append, utf8Decode.eq_def]
        simp only [g0, if_false, g1, g2, if_true, cont _ (show c / 64 % 64 < 64 by omega), cont _ (show c % 64 < 64 by omega), e0, e1, e2,
          g3, g4, Bool.not_false, Bool.and_true]
        rw [if_neg (by simp)]
        rw [show (0xE0 + c / 4096 - 0xE0) * 4096 + (0x80 + c / 64 % 64 - 0x80) * 64 + (0x80 + c % 64 - 0x80) = c by omega]
      · rename_i hb hd hc
        have e0 := ofNat_small (n := 0xF0 + c / 262144) (by omega)
        have e1 := ofNat_small (n := 0x80 + c / 4096 % 64) (by omega)
        have e2 := ofNat_small (n := 0x80 + c / 64 % 64) (by omega)
        have e3 := ofNat_small (n := 0x80 + c % 64) (by omega)
        have g0 : ¬ UInt8.ofNat (0xF0 + c / 262144) < 0x80 := by
          rw [UInt8.lt_iff_toNat_lt, e0]; exact fun h => by have : (0x80 : UInt8).toNat = 128 := rfl; omega
        have g1 : ¬ (0xC2 ≤ UInt8.ofNat (0xF0 + c / 262144) && UInt8.ofNat (0xF0 + c / 262144) ≤ 0xDF) = true := by
          simp only [Bool.and_eq_true, decide_eq_true_eq, UInt8.le_iff_toNat_le, e0]
          have : (0xDF : UInt8).toNat = 0xDF := rfl
          omega
        have g2 : ¬ (0xE0 ≤ UInt8.ofNat (0xF0 + c / 262144) && UInt8.ofNat (0xF0 + c / 262144) ≤ 0xEF) = true := by
          simp only [Bool.and_eq_true, decide_eq_true_eq, UInt8.le_iff_toNat_le, e0]
          have : (0xEF : UInt8).toNat = 0xEF := rfl
          omega
        have g2' : (0xF0 ≤ UInt8.ofNat (0xF0 + c / 262144) && UInt8.ofNat (0xF0 + c / 262144) ≤ 0xF4) = true := by
          simp only [Bool.and_eq_true, decide_eq_true_eq, UInt8.le_iff_toNat_le, e0]
          have : (0xF0 : UInt8).toNat = 0xF0 := rfl
          have : (0xF4 : UInt8).toNat = 0xF4 := rfl
          omega
        have g3 : (UInt8.ofNat (0xF0 + c / 262144) == 0xF0 && UInt8.ofNat (0x80 + c / 4096 % 64) < 0x90) = false := by
          rw [Bool.eq_false_iff]
          simp only [ne_eq, Bool.and_eq_true, beq_iff_eq, decide_eq_true_eq, UInt8.lt_iff_toNat_lt, ← UInt8.toNat_inj, e0, e1]
          have : (0xF0 : UInt8).toNat = 0xF0 := rfl
          have : (0x90 : UInt8).toNat = 0x90 := rfl
          omega
        have g4 : (UInt8.ofNat (0xF0 + c / 262144) == 0xF4 && 0x90 ≤ UInt8.ofNat (0x80 + c / 4096 % 64)) = false := by
          rw [Bool.eq_false_iff]
          simp only [ne_eq, Bool.and_eq_true, beq_iff_eq, decide_eq_true_eq, UInt8.le_iff_toNat_le, ← UInt8.toNat_inj, e0, e1]
          have : (0xF4 : UInt8).toNat = 0xF4 := rfl
          have : (0x90 : UInt8).toNat = 0x90 := rfl
          omega
        rw [List.cons_append, List.cons_append, List.cons_append, List.cons_append, List.nil_append, utf8Decode.eq_def]
        simp only [g0, if_false, g1, g2, g2', if_true, cont _ (show c / 64 % 64 < 64 by omega), cont _ (show c % 64 < 64 by omega),
          cont _ (show c / 4096 % 64 < 64 by omega), e0, e1, e2, e3, g3, g4, Bool.not_false, Bool.and_true]
        rw [if_neg (by simp), if_neg (by simp)]
        rw [show (0xF0 + c / 262144 - 0xF0) * 262144 + (0x80 + c / 4096 % 64 - 0x80) * 4096 + (0x80 + c / 64 % 64 - 0x80) * 64 + (0x80 + c % 64 - 0x80) = c by omega]

theorem utf8Decode_complete : ∀ {cs : List Nat}, (∀ c ∈ cs, Scalar c) → utf8Decode (cs.map utf8Encode).flatten = some cs
  | [], _ => by simp [utf8Decode]
  | c :: cs, h => by
    rw [List.map_cons, List.flatten_cons, utf8Decode_encode (h c (by simp)), utf8Decode_complete (fun c' hc => h c' (by simp [hc]))]
    rfl

theorem utf8Valid_iff {s : Bytes} : utf8Valid s = true ↔ Utf8 s := by
  unfold utf8Valid
  rw [Option.isSome_iff_exists]
  constructor
  · rintro ⟨cs, h⟩
    exact ⟨cs, utf8Decode_sound h⟩
  · rintro ⟨cs, h, rfl⟩
    exact ⟨cs, utf8Decode_complete h⟩

instance (s : Bytes) : Decidable (Utf8 s) := decidable_of_iff _ utf8Valid_iff

end Dnssec
