import Verif.Proofs.Order
import Verif.Proofs.Rdata
import Verif.Proofs.Labels
import Verif.Spec.Misc
import Verif.Model.Validation

/-! # Key tag, RSA keys, NSEC order -/

namespace Dnssec

open Spec

/-! ### Key tag -/

theorem shl8_toNat (b : UInt8) : (b.toUInt32 <<< 8).toNat = b.toNat * 256 := by
  have h := b.toNat_lt
  rw [UInt32.toNat_shiftLeft, UInt8.toNat_toUInt32, Nat.shiftLeft_eq]
  simp
  omega

theorem shr16_toNat (r : UInt32) : ((r >>> 16) &&& 0xffff).toNat = r.toNat / 65536 % 65536 := by
  rw [UInt32.toNat_and, UInt32.toNat_shiftRight, Nat.shiftRight_eq_div_pow]
  have : ∀ n, n &&& (0xffff : UInt32).toNat = n % 65536 := fun n => Nat.and_two_pow_sub_one_eq_mod n 16
  rw [this]; rfl

theorem and16_toNat (r : UInt32) : ((r &&& 0xffff).toUInt16).toNat = r.toNat % 65536 := by
  rw [UInt32.toNat_toUInt16, UInt32.toNat_and]
  have : ∀ n, n &&& (0xffff : UInt32).toNat = n % 65536 := fun n => Nat.and_two_pow_sub_one_eq_mod n 16
  rw [this]; omega

theorem keyTagSum_le : ∀ bs : Bytes, keyTagSum bs ≤ 65535 * ((bs.length + 1) / 2)
  | [] => by simp [keyTagSum]
  | [a] => by have := a.toNat_lt; simp only [keyTagSum, List.length_singleton]; omega
  | a :: b :: rest => by
    have := a.toNat_lt
    have := b.toNat_lt
    have := keyTagSum_le rest
    simp only [keyTagSum, List.length_cons]
    omega

theorem keyTagLoop_eq : ∀ (bs : Bytes) (idx : Nat) (res : UInt32), idx % 2 = 0 →
    (keyTagLoop idx bs res).toNat = (res.toNat + keyTagSum bs) % 4294967296
  | [], idx, res, _ => by
    have := res.toNat_lt
    simp only [keyTagLoop, keyTagSum]; omega
  | [a], idx, res, hi => by
    simp only [keyTagLoop, hi, if_true, keyTagSum, UInt32.toNat_add, shl8_toNat]
  | a :: b :: rest, idx, res, hi => by
    simp only [keyTagSum]
    have h1 : (res + (a.toUInt32 <<< 8)).toNat = (res.toNat + a.toNat * 256) % 4294967296 := by
      rw [UInt32.toNat_add, shl8_toNat]
    have h2 : (res + (a.toUInt32 <<< 8) + b.toUInt32).toNat = (res.toNat + a.toNat * 256 + b.toNat) % 4294967296 := by
      rw [UInt32.toNat_add, h1, UInt8.toNat_toUInt32]; omega
    rw [keyTagLoop, keyTagLoop, if_pos hi, if_neg (by omega), keyTagLoop_eq rest (idx + 1 + 1) _ (by omega), h2]
    omega

theorem rdata_keyTagSum (k : DnsKey) :
    keyTagSum (rdata (.dnskey k)) = k.flags.toNat + k.protocol.toNat * 256 + k.alg.toNat + keyTagSum k.pubkey := by
  have h := k.flags.toNat_lt
  rw [rdata_dnskey]
  simp only [be16, List.cons_append, List.nil_append, keyTagSum, UInt8.toNat_ofNat']
  omega

theorem keyTag_eq (k : DnsKey) : k.computeKeyTag.toNat = keyTag (rdata (.dnskey k)) := by
  have h1 := k.flags.toNat_lt
  have h2 := k.protocol.toNat_lt
  have h3 := k.alg.toNat_lt
  unfold DnsKey.computeKeyTag keyTag
  rw [rdata_keyTagSum]
  simp only [and16_toNat, UInt32.toNat_add, shr16_toNat]
  have hr : (k.flags.toUInt32 + (k.protocol.toUInt32 <<< 8) + k.alg.toUInt32).toNat
      = k.flags.toNat + k.protocol.toNat * 256 + k.alg.toNat := by
    simp only [UInt32.toNat_add, shl8_toNat, UInt8.toNat_toUInt32, UInt16.toNat_toUInt32]; omega
  rw [keyTagLoop_eq k.pubkey 0 _ rfl, hr]
  simp only [show (2 : Nat) ^ 32 = 4294967296 from rfl]
  generalize (k.flags.toNat + k.protocol.toNat * 256 + k.alg.toNat + keyTagSum k.pubkey) % 4294967296 = ac
  omega

/-! ### RSA keys -/

theorem or_shl8 (a b : Nat) (h : b < 256) : (a <<< 8) ||| b = a * 256 + b := by
  have := Nat.two_pow_add_eq_or_of_lt (i := 8) (by simpa using h) a
  rw [Nat.shiftLeft_eq, show a * 2 ^ 8 = 2 ^ 8 * a from Nat.mul_comm _ _, ← this]

theorem bytesToRsaPk_iff (key n e : Bytes) :
    bytesToRsaPk key = some (n, e) ↔ RsaKey key e n ∧ n ≠ [] ∧ 3 < key.length := by
  unfold bytesToRsaPk
  split
  · rename_i b0 b1 b2 b3 r
    by_cases h0 : b0 = 0
    · subst h0
      simp only [if_true]
      rw [or_shl8 _ _ b2.toNat_lt]
      generalize hl : b1.toNat * 256 + b2.toNat = len
      constructor
      · intro h
        split at h
        · simp at h
        · rename_i hlt
          simp only [Option.some.injEq, Prod.mk.injEq] at h
          obtain ⟨rfl, rfl⟩ := h
          simp only [List.length_cons] at hlt
          refine ⟨?_, ?_, by simp⟩
          · have hd : (0 :: b1 :: b2 :: b3 :: r).drop (3 + len) = ((0 :: b1 :: b2 :: b3 :: r).drop 3).drop len := by
              rw [List.drop_drop]
            rw [hd]
            have := RsaKey.long b1 b2 ((b3 :: r).take len) ((b3 :: r).drop len) (by simp; omega)
            rwa [List.take_append_drop] at this
          · intro hn
            have := congrArg List.length hn
            simp at this
            omega
      · rintro ⟨h1, h2, _⟩
        have hnl := List.length_pos_iff.mpr h2
        generalize hk : (0 :: b1 :: b2 :: b3 :: r : Bytes) = key at h1
        cases h1 with
        | short _ _ _ hz => simp at hk; exact absurd hk.1.symm hz
        | long hi lo _ _ he =>
          simp only [List.cons.injEq, true_and] at hk
          obtain ⟨rfl, rfl, hk⟩ := hk
          have hel : e.length = len := by omega
          rw [if_neg (by simp only [List.length_cons, List.length_append]; omega)]
          simp only [Option.some.injEq, Prod.mk.injEq]
          have h3 : ∀ x y z : UInt8, (x :: y :: z :: (e ++ n)).drop 3 = e ++ n := fun _ _ _ => rfl
          rw [← List.drop_drop, h3, ← hel]
          simp
    · simp only [h0, if_false]
      constructor
      · intro h
        split at h
        · simp at h
        · rename_i hlt
          simp only [Option.some.injEq, Prod.mk.injEq] at h
          obtain ⟨rfl, rfl⟩ := h
          simp only [List.length_cons] at hlt
          refine ⟨?_, ?_, by simp⟩
          · rw [← List.drop_drop]
            have := RsaKey.short b0 ((b1 :: b2 :: b3 :: r).take b0.toNat) ((b1 :: b2 :: b3 :: r).drop b0.toNat) h0
              (by rw [List.length_take, List.length_cons, List.length_cons, List.length_cons]; omega)
            rwa [List.take_append_drop] at this
          · intro hn
            have := congrArg List.length hn
            simp at this
            omega
      · rintro ⟨h1, h2, _⟩
        have hnl := List.length_pos_iff.mpr h2
        generalize hk : (b0 :: b1 :: b2 :: b3 :: r : Bytes) = key at h1
        cases h1 with
        | long hi lo _ _ he => simp at hk; exact absurd hk.1 h0
        | short len _ _ hz he =>
          simp only [List.cons.injEq] at hk
          obtain ⟨rfl, hk⟩ := hk
          rw [if_neg (by simp only [List.length_cons, List.length_append]; omega)]
          simp only [Option.some.injEq, Prod.mk.injEq]
          rw [← List.drop_drop, List.drop_one, List.tail_cons, ← he]
          simp
  · rename_i hne
    simp only [reduceCtorEq, false_iff]
    rintro ⟨_, _, h⟩
    match key, h with
    | a :: b :: c :: d :: r, _ => exact hne a b c d r rfl

/-! ### NSEC order -/

theorem nsecLabelCmp_eq : ∀ a b : Bytes, nsecLabelCmp a b = cmpBytes (lower a) (lower b)
  | [], [] => rfl
  | [], _ :: _ => rfl
  | _ :: _, [] => rfl
  | a :: as, b :: bs => by
    have ih := nsecLabelCmp_eq as bs
    simp only [nsecLabelCmp, lower, List.map_cons, cmpBytes_cons] at ih ⊢
    by_cases h : lowerByte a = lowerByte b
    · rw [if_neg (by simpa using h), h, compare_u8_self]; exact ih
    · rw [if_pos h]
      cases hc : compare (lowerByte a) (lowerByte b) with
      | lt => rfl
      | gt => rfl
      | eq =>
        rw [compare_u8, Nat.compare_eq_eq, UInt8.toNat_inj] at hc
        exact absurd hc h

theorem nsecLabelsCmp_eq : ∀ a b : List Bytes, nsecLabelsCmp a b = cmpKeys (a.map lower) (b.map lower)
  | [], [] => rfl
  | [], _ :: _ => rfl
  | _ :: _, [] => rfl
  | a :: as, b :: bs => by
    have ih := nsecLabelsCmp_eq as bs
    rw [List.map_cons, List.map_cons, cmpKeys_cons, ← ih, ← nsecLabelCmp_eq, nsecLabelsCmp]
    cases nsecLabelCmp a b <;> rfl

theorem nsecOrd_eq (a b : Bytes) : nsecOrd a b = cmpKeys ((rsplitDot a).map lower) ((rsplitDot b).map lower) :=
  nsecLabelsCmp_eq _ _

theorem splitDot_injective {a b : Bytes} (h : splitDot a = splitDot b) : a = b := by
  obtain ⟨l, ls, h1, h2⟩ := splitDot_join a
  obtain ⟨m, ms, h3, h4⟩ := splitDot_join b
  rw [h1, h3, List.cons.injEq] at h
  rw [h2, h4, h.1, h.2]

theorem nsecKey_iff (a b : Bytes) : (rsplitDot a).map lower = (rsplitDot b).map lower ↔ lower a = lower b := by
  have : ∀ s, (rsplitDot s).map lower = (splitDot (lower s)).reverse := by
    intro s; rw [rsplitDot, List.map_reverse, ← splitDot_lower]
  rw [this, this, List.reverse_inj]
  exact ⟨splitDot_injective, fun h => by rw [h]⟩

theorem nsecOrd_eq_iff (a b : Bytes) : nsecOrd a b = .eq ↔ lower a = lower b := by
  rw [nsecOrd_eq, ← nsecKey_iff]
  exact Std.LawfulEqCmp.compare_eq_iff_eq

theorem nsecOrd_swap (a b : Bytes) : nsecOrd b a = (nsecOrd a b).swap := by
  rw [nsecOrd_eq, nsecOrd_eq]; exact Std.OrientedCmp.eq_swap

theorem nsecOrd_trans {a b c : Bytes} (h1 : nsecOrd a b ≠ .gt) (h2 : nsecOrd b c ≠ .gt) : nsecOrd a c ≠ .gt := by
  rw [nsecOrd_eq] at *
  exact Ordering.isLE_iff_ne_gt.mp
    (Std.TransCmp.isLE_trans (Ordering.isLE_iff_ne_gt.mpr h1) (Ordering.isLE_iff_ne_gt.mpr h2))

theorem nsecOrd_lt_trans {a b c : Bytes} (h1 : nsecOrd a b = .lt) (h2 : nsecOrd b c = .lt) : nsecOrd a c = .lt := by
  rw [nsecOrd_eq] at *
  exact Std.TransCmp.lt_trans h1 h2

theorem lower_eq_fold (s : Bytes) : lower s = s.map foldCase := List.map_congr_left (fun c _ => lowerByte_eq_foldCase c)

theorem nsecLabelsCmp_lt_iff : ∀ a b : List Bytes, nsecLabelsCmp a b = .lt ↔ LabelsLt a b
  | [], [] => by simp only [nsecLabelsCmp, reduceCtorEq, false_iff]; intro h; cases h
  | [], b :: bs => by simp only [nsecLabelsCmp, true_iff]; exact .nil b bs
  | _ :: _, [] => by simp only [nsecLabelsCmp, reduceCtorEq, false_iff]; intro h; cases h
  | a :: as, b :: bs => by
    have ih := nsecLabelsCmp_lt_iff as bs
    rw [nsecLabelsCmp, nsecLabelCmp_eq]
    cases hc : cmpBytes (lower a) (lower b) with
    | lt =>
      simp only [true_iff]
      rw [cmpBytes_lt_iff, lower_eq_fold, lower_eq_fold] at hc
      exact .head a b as bs hc
    | gt =>
      simp only [reduceCtorEq, false_iff]
      intro h
      cases h with
      | head _ _ _ _ h =>
        rw [← lower_eq_fold, ← lower_eq_fold, ← cmpBytes_lt_iff] at h
        rw [h] at hc; simp at hc
      | tail _ _ _ _ h =>
        rw [← lower_eq_fold, ← lower_eq_fold, ← cmpBytes_eq_iff] at h
        rw [h] at hc; simp at hc
    | eq =>
      simp only [ih]
      have he := hc
      rw [cmpBytes_eq_iff, lower_eq_fold, lower_eq_fold] at he
      constructor
      · exact fun h => .tail a b as bs he h
      · intro h
        cases h with
        | head _ _ _ _ h =>
          rw [← lower_eq_fold, ← lower_eq_fold, ← cmpBytes_lt_iff] at h
          rw [h] at hc; simp at hc
        | tail _ _ _ _ _ h => exact h

theorem nsecOrd_lt_text (a b : Bytes) : nsecOrd a b = .lt ↔ TextLt a b := by
  unfold nsecOrd TextLt rsplitDot
  rw [nsecLabelsCmp_lt_iff, cutAtDots_eq, cutAtDots_eq]

theorem nsecOrd_le_text (a b : Bytes) : nsecOrd a b ≠ .gt ↔ a.map foldCase = b.map foldCase ∨ TextLt a b := by
  rw [← nsecOrd_lt_text, ← lower_eq_fold, ← lower_eq_fold, ← nsecOrd_eq_iff]
  cases nsecOrd a b <;> simp

theorem resolveTime_eq (t : UInt32) : resolveTime t = instant t := rfl

theorem rsplitDot_text {ls : List Bytes} (hl : ∀ l ∈ ls, Label l) :
    rsplitDot (text ls) = [] :: (if ls = [] then [[]] else ls.reverse) := by
  by_cases h : ls = []
  · subst h; rfl
  · rw [rsplitDot, splitDot_text h hl, if_neg h]; simp

/-- On names with labels, `nsec_ord` is the canonical order. -/
theorem nsecOrd_lt_iff {a b : List Bytes} (ha : ∀ l ∈ a, Label l) (hb : ∀ l ∈ b, Label l) :
    nsecOrd (text a) (text b) = .lt ↔ CanonicalLt a b := by
  have key : ∀ x y : List Bytes, nsecLabelsCmp ([] :: x) ([] :: y) = nsecLabelsCmp x y := fun x y => rfl
  rw [nsecOrd, rsplitDot_text ha, rsplitDot_text hb, key, CanonicalLt]
  by_cases h1 : a = []
  · subst h1
    by_cases h2 : b = []
    · subst h2
      simp only [if_true, List.reverse_nil]
      constructor
      · intro h; exact absurd h (by decide)
      · intro h; cases h
    · rw [if_pos rfl, if_neg h2, List.reverse_nil]
      cases hr : b.reverse with
      | nil => simp at hr; exact absurd hr h2
      | cons l ls =>
        have hl : l ≠ [] := (hb l (by rw [← List.mem_reverse, hr]; simp)).nonempty
        constructor
        · intro _; exact .nil l ls
        · intro _
          cases l with
          | nil => exact absurd rfl hl
          | cons c cs => rfl
  · by_cases h2 : b = []
    · subst h2
      rw [if_neg h1, if_pos rfl, List.reverse_nil]
      cases hr : a.reverse with
      | nil => simp at hr; exact absurd hr h1
      | cons l ls =>
        have hl : l ≠ [] := (ha l (by rw [← List.mem_reverse, hr]; simp)).nonempty
        constructor
        · intro h
          cases l with
          | nil => exact absurd rfl hl
          | cons c cs => simp [nsecLabelsCmp, nsecLabelCmp] at h
        · intro h; cases h
    · rw [if_neg h1, if_neg h2]
      exact nsecLabelsCmp_lt_iff _ _

end Dnssec
