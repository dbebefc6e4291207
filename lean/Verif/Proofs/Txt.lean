import Verif.Proofs.Bytes
import Verif.Spec.Wire

/-! # TXT records -/

namespace Dnssec

open Spec

theorem txtWriteLoop_fuel : ∀ (f g : Nat) (d : Bytes), d.length ≤ f → d.length ≤ g → txtWriteLoop f d = txtWriteLoop g d := by
  intro f
  induction f with
  | zero =>
    intro g d h1 _
    have : d = [] := by cases d <;> simp_all
    subst this
    cases g <;> simp [txtWriteLoop]
  | succ f ih =>
    intro g d h1 h2
    by_cases hd : d = []
    · subst hd; cases g <;> simp [txtWriteLoop]
    · cases g with
      | zero => exact absurd (by cases d <;> simp_all) hd
      | succ g =>
        have hpos : 0 < d.length := List.length_pos_iff.mpr hd
        unfold txtWriteLoop
        simp only [List.isEmpty_iff, hd, if_false]
        rw [ih g (d.drop (min 255 d.length)) (by simp; omega) (by simp; omega)]

/-- The character-strings of non-empty data, nothing for empty data. -/
def txtV (d : Bytes) : Bytes := if d = [] then [] else txtLenByte d :: txtWriteLoop d.length d

theorem txtV_nil : txtV [] = [] := rfl

theorem txtV_short {d : Bytes} (h0 : d ≠ []) (h : d.length ≤ 255) : txtV d = UInt8.ofNat d.length :: d := by
  unfold txtV
  rw [if_neg h0]
  have hpos : 0 < d.length := List.length_pos_iff.mpr h0
  obtain ⟨k, hk⟩ : ∃ k, d.length = k + 1 := ⟨d.length - 1, by omega⟩
  have hm : min 255 d.length = d.length := by omega
  conv => lhs; rhs; rw [hk]
  unfold txtWriteLoop
  simp only [List.isEmpty_iff, h0, if_false, hm, List.take_length, List.drop_length, if_true, List.append_nil]
  rw [show txtLenByte d = UInt8.ofNat d.length by simp [txtLenByte, h]]
  congr 1
  cases k <;> simp [txtWriteLoop]

theorem txtV_long {d : Bytes} (h : 255 ≤ d.length) : txtV d = 255 :: (d.take 255 ++ txtV (d.drop 255)) := by
  have h0 : d ≠ [] := by intro e; subst e; simp at h
  by_cases he : d.length = 255
  · rw [txtV_short h0 (by omega), List.take_of_length_le (by omega), List.drop_of_length_le (by omega), txtV_nil, he]
    simp
  · unfold txtV
    rw [if_neg h0]
    obtain ⟨k, hk⟩ : ∃ k, d.length = k + 1 := ⟨d.length - 1, by omega⟩
    have hm : min 255 d.length = 255 := by omega
    have hne : d.drop 255 ≠ [] := by
      intro e; have := congrArg List.length e; simp at this; omega
    conv => lhs; rhs; rw [hk]
    conv => lhs; rhs; unfold txtWriteLoop
    simp only [List.isEmpty_iff, h0, if_false, hm, hne, List.append_assoc, List.singleton_append]
    rw [show txtLenByte d = 255 by unfold txtLenByte; rw [if_neg (by omega)]]
    rw [txtWriteLoop_fuel k (d.drop 255).length _ (by simp only [List.length_drop]; omega) (Nat.le_refl _)]

theorem txtWrite_eq {d : Bytes} (h : d ≠ []) : [txtLenByte d] ++ txtWriteLoop d.length d = txtV d := by
  simp [txtV, h]

theorem txtV_length (k : Nat) : ∀ d : Bytes, d.length / 255 = k → (txtV d).length = d.length + (d.length + 254) / 255 := by
  induction k with
  | zero =>
    intro d h
    by_cases h0 : d = []
    · subst h0; simp [txtV]
    · have hpos : 0 < d.length := List.length_pos_iff.mpr h0
      rw [txtV_short h0 (by omega)]; simp; omega
  | succ k ih =>
    intro d h
    rw [txtV_long (by omega)]
    have := ih (d.drop 255) (by simp; omega)
    simp [this] at *
    omega

/-- The maximal 255-byte pieces. -/
theorem txtV_charStrings (k : Nat) : ∀ d : Bytes, d.length / 255 = k → d ≠ [] → ∃ full last,
    txtV d = charStrings (full ++ [last]) ∧ (full ++ [last]).flatten = d ∧ (∀ s ∈ full, s.length = 255) ∧
      1 ≤ last.length ∧ last.length ≤ 255 := by
  induction k with
  | zero =>
    intro d h h0
    have hpos : 0 < d.length := List.length_pos_iff.mpr h0
    refine ⟨[], d, ?_, by simp, by simp, by omega, by omega⟩
    rw [txtV_short h0 (by omega)]; simp [charStrings]
  | succ k ih =>
    intro d h h0
    by_cases he : d.length = 255
    · refine ⟨[], d, ?_, by simp, by simp, by omega, by omega⟩
      rw [txtV_short h0 (by omega)]; simp [charStrings]
    · obtain ⟨full, last, h1, h2, h3, h4⟩ := ih (d.drop 255) (by simp; omega)
        (by intro e; have := congrArg List.length e; simp at this; omega)
      refine ⟨d.take 255 :: full, last, ?_, ?_, ?_, h4⟩
      · rw [txtV_long (by omega), h1]
        have hl : (d.take 255).length = 255 := by simp; omega
        simp only [charStrings, List.cons_append, List.map_cons, List.flatten_cons, hl]
        rfl
      · rw [List.cons_append, List.flatten_cons, h2, List.take_append_drop]
      · intro s hs
        rcases List.mem_cons.mp hs with rfl | hs
        · simp; omega
        · exact h3 s hs

/-! ### Reading -/

theorem txtReadLoop_iff (fuel : Nat) : ∀ (inp acc d : Bytes), inp.length ≤ fuel →
    (txtReadLoop fuel inp acc = .ok d ↔
      ∃ ss, inp = charStrings ss ∧ (∀ s ∈ ss, s.length ≤ 255) ∧ d = acc ++ ss.flatten) := by
  induction fuel with
  | zero =>
    intro inp acc d h
    have : inp = [] := by cases inp <;> simp_all
    subst this
    simp only [txtReadLoop, Res.ok.injEq]
    constructor
    · rintro rfl; exact ⟨[], rfl, by simp, by simp⟩
    · rintro ⟨ss, h1, _, h2⟩
      cases ss with
      | nil => simpa using h2.symm
      | cons s ss => simp [charStrings] at h1
  | succ fuel ih =>
    intro inp acc d h
    cases inp with
    | nil =>
      simp only [txtReadLoop, Res.ok.injEq]
      constructor
      · rintro rfl; exact ⟨[], rfl, by simp, by simp⟩
      · rintro ⟨ss, h1, _, h2⟩
        cases ss with
        | nil => simpa using h2.symm
        | cons s ss => simp [charStrings] at h1
    | cons len data =>
      simp only [txtReadLoop]
      have hlt := len.toNat_lt
      split
      · rename_i hlt
        simp only [reduceCtorEq, false_iff]
        rintro ⟨ss, h1, h2, _⟩
        cases ss with
        | nil => simp [charStrings] at h1
        | cons s ss =>
          simp only [charStrings, List.map_cons, List.flatten_cons, List.cons_append, List.cons.injEq] at h1
          have hs := h2 s (by simp)
          rw [h1.1, UInt8.toNat_ofNat', h1.2, List.length_append] at hlt
          omega
      · rename_i hge
        rw [ih _ _ _ (by simp at h ⊢; omega)]
        have htl : (data.take len.toNat).length = len.toNat := by simp; omega
        constructor
        · rintro ⟨ss, h1, h2, h3⟩
          refine ⟨data.take len.toNat :: ss, ?_, ?_, ?_⟩
          · simp only [charStrings, List.map_cons, List.flatten_cons, htl, UInt8.ofNat_toNat, List.cons_append]
            congr 1
            rw [show (ss.map (fun s => UInt8.ofNat s.length :: s)).flatten = charStrings ss from rfl, ← h1,
              List.take_append_drop]
          · intro s hs
            rcases List.mem_cons.mp hs with rfl | hs
            · omega
            · exact h2 s hs
          · simp [h3, List.append_assoc]
        · rintro ⟨ss, h1, h2, h3⟩
          cases ss with
          | nil => simp [charStrings] at h1
          | cons s ss =>
            simp only [charStrings, List.map_cons, List.flatten_cons, List.cons_append, List.cons.injEq] at h1
            have hs := h2 s (by simp)
            have e : len.toNat = s.length := by rw [h1.1, UInt8.toNat_ofNat']; omega
            refine ⟨ss, ?_, fun x hx => h2 x (by simp [hx]), ?_⟩
            · rw [e, h1.2, List.drop_left]; rfl
            · rw [e, h1.2, List.take_left, h3]; simp

theorem txtReadLoop_no_panic (fuel : Nat) : ∀ inp acc : Bytes, txtReadLoop fuel inp acc ≠ .panic := by
  induction fuel with
  | zero => simp [txtReadLoop]
  | succ fuel ih =>
    intro inp acc
    cases inp with
    | nil => simp [txtReadLoop]
    | cons len data =>
      simp only [txtReadLoop]
      split
      · simp
      · exact ih _ _

theorem txtRead_write {d : Bytes} (h : d ≠ []) : txtReadLoop (txtV d).length (txtV d) [] = .ok d := by
  rw [txtReadLoop_iff _ _ _ _ (Nat.le_refl _)]
  obtain ⟨full, last, h1, h2, h3, h4, h5⟩ := txtV_charStrings _ d rfl h
  refine ⟨full ++ [last], h1, ?_, by simpa using h2.symm⟩
  intro s hs
  rcases List.mem_append.mp hs with hs | hs
  · exact Nat.le_of_eq (h3 s hs)
  · rw [List.mem_singleton] at hs; subst hs; exact h5

/-! ### Order -/

theorem compare_add_left (k a b : Nat) : compare (k + a) (k + b) = compare a b := by
  rcases Nat.lt_trichotomy a b with h | h | h
  · rw [Nat.compare_eq_lt.mpr h, Nat.compare_eq_lt.mpr (by omega)]
  · rw [Nat.compare_eq_eq.mpr h, Nat.compare_eq_eq.mpr (by omega)]
  · rw [Nat.compare_eq_gt.mpr h, Nat.compare_eq_gt.mpr (by omega)]

theorem txtV_cons {d : Bytes} (h : d ≠ []) : ∃ t, txtV d = UInt8.ofNat (min 255 d.length) :: t := by
  by_cases hl : d.length ≤ 255
  · exact ⟨d, by rw [txtV_short h hl]; congr 2; omega⟩
  · exact ⟨_, by rw [txtV_long (by omega), show min 255 d.length = 255 by omega]; rfl⟩

theorem cmp_txtV_lt {a b : Bytes} (h : min 255 a.length < min 255 b.length) : cmpBytes (txtV a) (txtV b) = .lt := by
  have hb : b ≠ [] := by intro e; subst e; simp at h
  obtain ⟨t, ht⟩ := txtV_cons hb
  by_cases ha : a = []
  · subst ha; rw [txtV_nil, ht]; rfl
  · obtain ⟨s, hs⟩ := txtV_cons ha
    rw [hs, ht, cmpBytes_cons, compare_u8, UInt8.toNat_ofNat', UInt8.toNat_ofNat',
      Nat.compare_eq_lt.mpr (by omega)]
    rfl

theorem cmpBytes_swap (a b : Bytes) : (cmpBytes a b).swap = cmpBytes b a := (Std.OrientedCmp.eq_swap).symm

theorem compare_u8_self (x : UInt8) : compare x x = .eq := by rw [compare_u8, Nat.compare_eq_eq.mpr rfl]

theorem txtCmpLoop_eq (a b : Bytes) : ∀ (n j : Nat), j * 255 ≤ a.length → j * 255 ≤ b.length →
    n = (a.length - j * 255) / 255 + 1 →
    txtCmpLoop a b n (j + 1) = some (cmpBytes (txtV (a.drop (j * 255))) (txtV (b.drop (j * 255)))) := by
  intro n
  induction n with
  | zero => intro j _ _ h; omega
  | succ n ih =>
    intro j ha hb hn
    have hj : (j + 1) * 255 = j * 255 + 255 := Nat.succ_mul j 255
    have e1 : min ((j + 1) * 255) a.length = j * 255 + min 255 (a.drop (j * 255)).length := by simp; omega
    have e2 : min ((j + 1) * 255) b.length = j * 255 + min 255 (b.drop (j * 255)).length := by simp; omega
    have hcmp : compare (min ((j + 1) * 255) a.length) (min ((j + 1) * 255) b.length) =
        compare (min 255 (a.drop (j * 255)).length) (min 255 (b.drop (j * 255)).length) := by
      rw [e1, e2, compare_add_left]
    unfold txtCmpLoop
    simp only [hcmp, Nat.add_sub_cancel]
    split
    · rename_i h
      rw [cmp_txtV_lt (Nat.compare_eq_lt.mp h)]
    · rename_i h
      rw [← cmpBytes_swap, cmp_txtV_lt (Nat.compare_eq_gt.mp h)]; rfl
    · rename_i h
      have hl := Nat.compare_eq_eq.mp h
      have s1 : slice? a (j * 255) (min ((j + 1) * 255) a.length) = some ((a.drop (j * 255)).take 255) := by
        unfold slice?
        rw [if_pos ⟨by omega, by omega⟩]
        congr 1
        rw [List.drop_take, e1, Nat.add_sub_cancel_left]
        by_cases hq : 255 ≤ (a.drop (j * 255)).length
        · rw [Nat.min_eq_left hq]
        · rw [Nat.min_eq_right (by omega), List.take_length, List.take_of_length_le (by omega)]
      have s2 : slice? b (j * 255) (min ((j + 1) * 255) b.length) = some ((b.drop (j * 255)).take 255) := by
        unfold slice?
        rw [if_pos ⟨by omega, by omega⟩]
        congr 1
        rw [List.drop_take, e2, Nat.add_sub_cancel_left]
        by_cases hq : 255 ≤ (b.drop (j * 255)).length
        · rw [Nat.min_eq_left hq]
        · rw [Nat.min_eq_right (by omega), List.take_length, List.take_of_length_le (by omega)]
      rw [s1, s2]
      simp only []
      obtain ⟨a', ha'⟩ : ∃ a', a.drop (j * 255) = a' := ⟨_, rfl⟩
      obtain ⟨b', hb'⟩ : ∃ b', b.drop (j * 255) = b' := ⟨_, rfl⟩
      rw [ha', hb'] at hl ⊢
      clear s1 s2 h hcmp e1 e2
      have hal : a'.length = a.length - j * 255 := by rw [← ha']; simp
      have hbl : b'.length = b.length - j * 255 := by rw [← hb']; simp
      by_cases hlong : 255 ≤ a'.length
      · have hlong' : 255 ≤ b'.length := by omega
        rw [txtV_long hlong, txtV_long hlong', cmpBytes_cons, cmpBytes_append (by simp; omega)]
        rw [compare_u8_self]
        have b1 : j * 255 + 255 ≤ a.length := Nat.add_comm _ _ ▸ Nat.add_le_of_le_sub ha (hal ▸ hlong)
        have b2 : j * 255 + 255 ≤ b.length := Nat.add_comm _ _ ▸ Nat.add_le_of_le_sub hb (hbl ▸ hlong')
        have b3 : n = (a.length - (j * 255 + 255)) / 255 + 1 := by omega
        have hrec := ih (j + 1)
        rw [hj] at hrec
        have hrec := hrec b1 b2 b3
        rw [ ← List.drop_drop, ← List.drop_drop, ha', hb'] at hrec
        cases hc : cmpBytes (a'.take 255) (b'.take 255) with
        | eq => simpa using hrec
        | lt => simp
        | gt => simp
      · have hlen : a'.length = b'.length := by omega
        rw [List.take_of_length_le (by omega), List.take_of_length_le (by omega)]
        have hn0 : n = 0 := by omega
        subst hn0
        have hV : cmpBytes (txtV a') (txtV b') = cmpBytes a' b' := by
          by_cases h0 : a' = []
          · have : b' = [] := List.length_eq_zero_iff.mp (by rw [← hlen, h0]; rfl)
            subst h0 this; rfl
          · have h0' : b' ≠ [] := by intro e; subst e; simp at hlen; exact h0 hlen
            rw [txtV_short h0 (by omega), txtV_short h0' (by omega), cmpBytes_cons, hlen]
            rw [compare_u8_self]; rfl
        rw [hV]
        cases hc : cmpBytes a' b' <;> simp [txtCmpLoop]

/-- The TXT comparison is total and is the octet order of the character-string encoding. -/
theorem Txt.partialCmp?_eq (a b : Txt) :
    a.partialCmp? b = some ((a.name.cmp b.name).then (cmpBytes (txtV a.data) (txtV b.data))) := by
  unfold Txt.partialCmp?
  have := txtCmpLoop_eq a.data b.data (a.data.length / 255 + 1) 0 (by simp) (by simp) (by simp)
  simp only [Nat.zero_add, Nat.zero_mul, List.drop_zero] at this
  cases h : a.name.cmp b.name <;> simp [this]

theorem Txt.partialCmp_eq (a b : Txt) :
    a.partialCmp b = (a.name.cmp b.name).then (cmpBytes (txtV a.data) (txtV b.data)) := by
  simp [Txt.partialCmp, Txt.partialCmp?_eq]

theorem txtV_injective {a b : Bytes} (h : txtV a = txtV b) : a = b := by
  by_cases ha : a = []
  · subst ha
    by_cases hb : b = []
    · exact hb.symm
    · obtain ⟨t, ht⟩ := txtV_cons hb; rw [ht, txtV_nil] at h; simp at h
  · by_cases hb : b = []
    · subst hb; obtain ⟨t, ht⟩ := txtV_cons ha; rw [ht, txtV_nil] at h; simp at h
    · have e1 := txtRead_write ha
      rw [h, txtRead_write hb] at e1
      simpa using e1.symm

end Dnssec
