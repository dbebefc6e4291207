import Verif.Model.Base32
import Verif.Spec.Misc

/-! # base32hex -/

namespace Dnssec.Base32

open Dnssec Spec

/-! ### Single characters -/

theorem charValue_upper : ∀ c : Fin 256, charValue (UInt8.ofNat c.val) = charValue (upperByte (UInt8.ofNat c.val)) := by
  decide +kernel

theorem charValue_table : ∀ c : Fin 256, ∀ v : Fin 32,
    charValue (UInt8.ofNat c.val) = some (UInt8.ofNat v.val) ↔ upperByte (UInt8.ofNat c.val) = hexChar v.val := by
  decide +kernel

theorem charValue_lt : ∀ c : Fin 256, ∀ w, charValue (UInt8.ofNat c.val) = some w → w.toNat < 32 := by
  have : ∀ c : Fin 256, (charValue (UInt8.ofNat c.val)).all (fun w => decide (w.toNat < 32)) = true := by decide +kernel
  intro c w h
  have := this c
  rw [h] at this
  simpa using this

theorem charValue_iff (c : UInt8) (v : Nat) (hv : v < 32) :
    charValue c = some (UInt8.ofNat v) ↔ upperByte c = hexChar v := by
  have := charValue_table ⟨c.toNat, c.toNat_lt⟩ ⟨v, hv⟩
  simpa using this

theorem charValue_some_lt {c w : UInt8} (h : charValue c = some w) : w.toNat < 32 :=
  charValue_lt ⟨c.toNat, c.toNat_lt⟩ w (by simpa using h)

theorem alpha_eq (i : UInt8) : alpha i = hexChar i.toNat := by
  unfold alpha hexChar
  rw [show ascii "0123456789ABCDEFGHIJKLMNOPQRSTUV" = alphabet by decide]

/-! ### One chunk as natural numbers -/

/-- The eight base-32 digits of five bytes. -/
def digits8 (b0 b1 b2 b3 b4 : Nat) : List Nat :=
  [b0 / 8, b0 % 8 * 4 + b1 / 64, b1 / 2 % 32, b1 % 2 * 16 + b2 / 16, b2 % 16 * 2 + b3 / 128, b3 / 4 % 32,
   b3 % 4 * 8 + b4 / 32, b4 % 32]

theorem or_add (a b k : Nat) (h : b < 2 ^ k) (ha : 2 ^ k ∣ a) : a ||| b = a + b := by
  obtain ⟨c, rfl⟩ := ha
  exact (Nat.two_pow_add_eq_or_of_lt h c).symm

theorem e0 : ∀ b : Fin 256, ((UInt8.ofNat b.val &&& 0xF8) >>> 3).toNat = b.val / 8 := by decide +kernel
theorem e1a : ∀ b : Fin 256, ((UInt8.ofNat b.val &&& 0x07) <<< 2).toNat = b.val % 8 * 4 := by decide +kernel
theorem e1b : ∀ b : Fin 256, ((UInt8.ofNat b.val &&& 0xC0) >>> 6).toNat = b.val / 64 := by decide +kernel
theorem e2 : ∀ b : Fin 256, ((UInt8.ofNat b.val &&& 0x3E) >>> 1).toNat = b.val / 2 % 32 := by decide +kernel
theorem e3a : ∀ b : Fin 256, ((UInt8.ofNat b.val &&& 0x01) <<< 4).toNat = b.val % 2 * 16 := by decide +kernel
theorem e3b : ∀ b : Fin 256, ((UInt8.ofNat b.val &&& 0xF0) >>> 4).toNat = b.val / 16 := by decide +kernel
theorem e4a : ∀ b : Fin 256, ((UInt8.ofNat b.val &&& 0x0F) <<< 1).toNat = b.val % 16 * 2 := by decide +kernel
theorem e4b : ∀ b : Fin 256, (UInt8.ofNat b.val >>> 7).toNat = b.val / 128 := by decide +kernel
theorem e5 : ∀ b : Fin 256, ((UInt8.ofNat b.val &&& 0x7C) >>> 2).toNat = b.val / 4 % 32 := by decide +kernel
theorem e6a : ∀ b : Fin 256, ((UInt8.ofNat b.val &&& 0x03) <<< 3).toNat = b.val % 4 * 8 := by decide +kernel
theorem e6b : ∀ b : Fin 256, ((UInt8.ofNat b.val &&& 0xE0) >>> 5).toNat = b.val / 32 := by decide +kernel
theorem e7 : ∀ b : Fin 256, (UInt8.ofNat b.val &&& 0x1F).toNat = b.val % 32 := by decide +kernel

theorem byteLemma {P : UInt8 → Nat → Prop} (h : ∀ b : Fin 256, P (UInt8.ofNat b.val) b.val) (b : UInt8) : P b b.toNat := by
  have := h ⟨b.toNat, b.toNat_lt⟩
  simpa using this

theorem encodeChunk_eq (c : Bytes) : encodeChunk c =
    (digits8 (c.getD 0 0).toNat (c.getD 1 0).toNat (c.getD 2 0).toNat (c.getD 3 0).toNat (c.getD 4 0).toNat).map hexChar := by
  have f0 := byteLemma (P := fun b n => ((b &&& 0xF8) >>> 3).toNat = n / 8) e0
  have f1a := byteLemma (P := fun b n => ((b &&& 0x07) <<< 2).toNat = n % 8 * 4) e1a
  have f1b := byteLemma (P := fun b n => ((b &&& 0xC0) >>> 6).toNat = n / 64) e1b
  have f2 := byteLemma (P := fun b n => ((b &&& 0x3E) >>> 1).toNat = n / 2 % 32) e2
  have f3a := byteLemma (P := fun b n => ((b &&& 0x01) <<< 4).toNat = n % 2 * 16) e3a
  have f3b := byteLemma (P := fun b n => ((b &&& 0xF0) >>> 4).toNat = n / 16) e3b
  have f4a := byteLemma (P := fun b n => ((b &&& 0x0F) <<< 1).toNat = n % 16 * 2) e4a
  have f4b := byteLemma (P := fun b n => (b >>> 7).toNat = n / 128) e4b
  have f5 := byteLemma (P := fun b n => ((b &&& 0x7C) >>> 2).toNat = n / 4 % 32) e5
  have f6a := byteLemma (P := fun b n => ((b &&& 0x03) <<< 3).toNat = n % 4 * 8) e6a
  have f6b := byteLemma (P := fun b n => ((b &&& 0xE0) >>> 5).toNat = n / 32) e6b
  have f7 := byteLemma (P := fun b n => (b &&& 0x1F).toNat = n % 32) e7
  unfold encodeChunk digits8
  simp only [alpha_eq, List.map_cons, List.map_nil, UInt8.toNat_or, f0, f1a, f1b, f2, f3a, f3b, f4a, f4b, f5, f6a, f6b, f7]
  have h0 := (c.getD 0 0).toNat_lt
  have h1 := (c.getD 1 0).toNat_lt
  have h2 := (c.getD 2 0).toNat_lt
  have h3 := (c.getD 3 0).toNat_lt
  have h4 := (c.getD 4 0).toNat_lt
  rw [or_add _ _ 2 (by omega) (by omega), or_add _ _ 4 (by omega) (by omega), or_add _ _ 1 (by omega) (by omega),
    or_add _ _ 3 (by omega) (by omega)]

/-- The five bytes of eight base-32 digits. -/
def bytes5 (v0 v1 v2 v3 v4 v5 v6 v7 : Nat) : List Nat :=
  [v0 * 8 + v1 / 4, v1 % 4 * 64 + v2 * 2 + v3 / 16, v3 % 16 * 16 + v4 / 2, v4 % 2 * 128 + v5 * 4 + v6 / 8,
   v6 % 8 * 32 + v7]

theorem shl_toNat (x : UInt8) (k : Nat) (hk : k < 8) : (x <<< UInt8.ofNat k).toNat = x.toNat * 2 ^ k % 256 := by
  rw [UInt8.toNat_shiftLeft, Nat.shiftLeft_eq, UInt8.toNat_ofNat', Nat.mod_eq_of_lt (a := k) (by omega : k < 2 ^ 8),
    Nat.mod_eq_of_lt hk]

theorem shr_toNat (x : UInt8) (k : Nat) (hk : k < 8) : (x >>> UInt8.ofNat k).toNat = x.toNat / 2 ^ k := by
  rw [UInt8.toNat_shiftRight, Nat.shiftRight_eq_div_pow, UInt8.toNat_ofNat', Nat.mod_eq_of_lt (a := k) (by omega : k < 2 ^ 8),
    Nat.mod_eq_of_lt hk]

theorem decodeChunk_eq (v : Bytes) (h : ∀ i, (v.getD i 0).toNat < 32) : (decodeChunk v).map UInt8.toNat =
    bytes5 (v.getD 0 0).toNat (v.getD 1 0).toNat (v.getD 2 0).toNat (v.getD 3 0).toNat (v.getD 4 0).toNat
      (v.getD 5 0).toNat (v.getD 6 0).toNat (v.getD 7 0).toNat := by
  have h0 := h 0
  have h1 := h 1
  have h2 := h 2
  have h3 := h 3
  have h4 := h 4
  have h5 := h 5
  have h6 := h 6
  have h7 := h 7
  have l3 : ∀ x : UInt8, (x <<< 3).toNat = x.toNat * 8 % 256 := fun x => shl_toNat x 3 (by decide)
  have l6 : ∀ x : UInt8, (x <<< 6).toNat = x.toNat * 64 % 256 := fun x => shl_toNat x 6 (by decide)
  have l1 : ∀ x : UInt8, (x <<< 1).toNat = x.toNat * 2 % 256 := fun x => shl_toNat x 1 (by decide)
  have l4 : ∀ x : UInt8, (x <<< 4).toNat = x.toNat * 16 % 256 := fun x => shl_toNat x 4 (by decide)
  have l7 : ∀ x : UInt8, (x <<< 7).toNat = x.toNat * 128 % 256 := fun x => shl_toNat x 7 (by decide)
  have l2 : ∀ x : UInt8, (x <<< 2).toNat = x.toNat * 4 % 256 := fun x => shl_toNat x 2 (by decide)
  have l5 : ∀ x : UInt8, (x <<< 5).toNat = x.toNat * 32 % 256 := fun x => shl_toNat x 5 (by decide)
  have r2 : ∀ x : UInt8, (x >>> 2).toNat = x.toNat / 4 := fun x => shr_toNat x 2 (by decide)
  have r4 : ∀ x : UInt8, (x >>> 4).toNat = x.toNat / 16 := fun x => shr_toNat x 4 (by decide)
  have r1 : ∀ x : UInt8, (x >>> 1).toNat = x.toNat / 2 := fun x => shr_toNat x 1 (by decide)
  have r3 : ∀ x : UInt8, (x >>> 3).toNat = x.toNat / 8 := fun x => shr_toNat x 3 (by decide)
  unfold decodeChunk bytes5
  simp only [List.map_cons, List.map_nil, UInt8.toNat_or, l1, l2, l3, l4, l5, l6, l7, r1, r2, r3, r4]
  simp only [List.cons.injEq, and_true]
  refine ⟨?_, ?_, ?_, ?_, ?_⟩
  · rw [or_add _ _ 3 (by omega) (by omega)]; omega
  · rw [or_add ((v.getD 1 0).toNat * 64 % 256) _ 6 (by omega) (by omega), or_add _ _ 1 (by omega) (by omega)]; omega
  · rw [or_add _ _ 4 (by omega) (by omega)]; omega
  · rw [or_add ((v.getD 4 0).toNat * 128 % 256) _ 7 (by omega) (by omega), or_add _ _ 2 (by omega) (by omega)]; omega
  · rw [or_add _ _ 5 (by omega) (by omega)]; omega

theorem toNat_map_inj {a b : Bytes} (h : a.map UInt8.toNat = b.map UInt8.toNat) : a = b :=
  List.map_inj_right (fun _ _ h => UInt8.toNat_inj.mp h) |>.mp h

theorem digits8_lt (b0 b1 b2 b3 b4 : Nat) (h0 : b0 < 256) (h1 : b1 < 256) (h2 : b2 < 256) (h3 : b3 < 256) (h4 : b4 < 256) :
    ∀ d ∈ digits8 b0 b1 b2 b3 b4, d < 32 := by
  intro d hd
  simp only [digits8, List.mem_cons, List.not_mem_nil, or_false] at hd
  omega

theorem chunkValues_length : ∀ {c v : Bytes}, chunkValues c = some v → v.length = c.length
  | [], v, h => by simp [chunkValues] at h; subst h; rfl
  | c :: cs, v, h => by
    rw [chunkValues] at h
    cases hc : charValue c with
    | none => rw [hc] at h; simp at h
    | some w =>
      rw [hc] at h
      simp only [Option.map_eq_some_iff] at h
      obtain ⟨t, h1, rfl⟩ := h
      simp [chunkValues_length h1]

theorem chunkValues_iff : ∀ {c v : Bytes}, chunkValues c = some v ↔
    c.map upperByte = v.map (fun w => hexChar w.toNat) ∧ ∀ w ∈ v, w.toNat < 32
  | [], v => by simp only [chunkValues, Option.some.injEq, List.map_nil]; constructor
                · rintro rfl; simp
                · rintro ⟨h, _⟩; exact (List.map_eq_nil_iff.mp h.symm).symm
  | c :: cs, v => by
    have ih := fun v => chunkValues_iff (c := cs) (v := v)
    rw [chunkValues]
    constructor
    · intro h
      cases hc : charValue c with
      | none => rw [hc] at h; simp at h
      | some w =>
        rw [hc] at h
        simp only [Option.map_eq_some_iff] at h
        obtain ⟨t, h1, rfl⟩ := h
        obtain ⟨h2, h3⟩ := (ih t).mp h1
        have hw := charValue_some_lt hc
        have := (charValue_iff c w.toNat hw).mp (by rw [hc]; simp)
        refine ⟨by simp [h2, this], ?_⟩
        intro x hx
        rcases List.mem_cons.mp hx with rfl | hx
        · exact hw
        · exact h3 x hx
    · rintro ⟨h1, h2⟩
      cases v with
      | nil => simp at h1
      | cons w ws =>
        simp only [List.map_cons, List.cons.injEq] at h1
        have := (charValue_iff c w.toNat (h2 w (by simp))).mpr h1.1
        rw [this, (ih ws).mpr ⟨h1.2, fun x hx => h2 x (by simp [hx])⟩]
        simp

theorem hexChar_inj : ∀ a b : Fin 32, hexChar a.val = hexChar b.val → a = b := by decide +kernel

theorem map_hexChar_inj : ∀ {a b : List Nat}, (∀ x ∈ a, x < 32) → (∀ x ∈ b, x < 32) → a.map hexChar = b.map hexChar → a = b
  | [], [], _, _, _ => rfl
  | [], _ :: _, _, _, h => by simp at h
  | _ :: _, [], _, _, h => by simp at h
  | x :: xs, y :: ys, ha, hb, h => by
    simp only [List.map_cons, List.cons.injEq] at h
    have := hexChar_inj ⟨x, ha x (by simp)⟩ ⟨y, hb y (by simp)⟩ h.1
    simp only [Fin.mk.injEq] at this
    rw [this, map_hexChar_inj (fun z hz => ha z (by simp [hz])) (fun z hz => hb z (by simp [hz])) h.2]

/-- Eight characters decode to five bytes exactly when they are (up to case) their encoding. -/
theorem chunk_iff {c b : Bytes} (hc : c.length = 8) (hb : b.length = 5) :
    (∃ v, chunkValues c = some v ∧ decodeChunk v = b) ↔ c.map upperByte = encodeChunk b := by
  match b, hb with
  | [b0, b1, b2, b3, b4], _ =>
  have g0 := b0.toNat_lt
  have g1 := b1.toNat_lt
  have g2 := b2.toNat_lt
  have g3 := b3.toNat_lt
  have g4 := b4.toNat_lt
  rw [encodeChunk_eq]
  simp only [List.getD_cons_zero, List.getD_cons_succ]
  constructor
  · rintro ⟨v, h1, h2⟩
    have hl := chunkValues_length h1
    rw [hc] at hl
    obtain ⟨h3, h4⟩ := chunkValues_iff.mp h1
    match v, hl with
    | [v0, v1, v2, v3, v4, v5, v6, v7], _ =>
    have k : ∀ i, ([v0, v1, v2, v3, v4, v5, v6, v7].getD i 0).toNat < 32 := by
      intro i
      rw [List.getD_eq_getElem?_getD]
      cases hg : ([v0, v1, v2, v3, v4, v5, v6, v7])[i]? with
      | none => simp
      | some w => exact h4 w (List.mem_of_getElem? hg)
    have h5 := congrArg (List.map UInt8.toNat) h2
    rw [decodeChunk_eq _ k] at h5
    simp only [List.getD_cons_zero, List.getD_cons_succ, bytes5, List.map_cons, List.map_nil, List.cons.injEq, and_true] at h5
    rw [h3]
    have k0 := h4 v0 (by simp)
    have k1 := h4 v1 (by simp)
    have k2 := h4 v2 (by simp)
    have k3 := h4 v3 (by simp)
    have k4 := h4 v4 (by simp)
    have k5 := h4 v5 (by simp)
    have k6 := h4 v6 (by simp)
    have k7 := h4 v7 (by simp)
    simp only [digits8, List.map_cons, List.map_nil]
    obtain ⟨f0, f1, f2, f3, f4⟩ := h5
    rw [show v0.toNat = b0.toNat / 8 by omega, show v1.toNat = b0.toNat % 8 * 4 + b1.toNat / 64 by omega,
      show v2.toNat = b1.toNat / 2 % 32 by omega, show v3.toNat = b1.toNat % 2 * 16 + b2.toNat / 16 by omega,
      show v4.toNat = b2.toNat % 16 * 2 + b3.toNat / 128 by omega, show v5.toNat = b3.toNat / 4 % 32 by omega,
      show v6.toNat = b3.toNat % 4 * 8 + b4.toNat / 32 by omega, show v7.toNat = b4.toNat % 32 by omega]
  · intro h
    have hd := digits8_lt b0.toNat b1.toNat b2.toNat b3.toNat b4.toNat g0 g1 g2 g3 g4
    have ht : ∀ d ∈ digits8 b0.toNat b1.toNat b2.toNat b3.toNat b4.toNat, (UInt8.ofNat d).toNat = d := by
      intro d hm
      have := hd d hm
      rw [UInt8.toNat_ofNat']; omega
    refine ⟨(digits8 b0.toNat b1.toNat b2.toNat b3.toNat b4.toNat).map UInt8.ofNat, chunkValues_iff.mpr ⟨?_, ?_⟩, ?_⟩
    · rw [h, List.map_map]
      apply List.map_congr_left
      intro d hm
      simp only [Function.comp_apply]
      rw [ht d hm]
    · intro w hw
      obtain ⟨d, hm, rfl⟩ := List.mem_map.mp hw
      rw [ht d hm]; exact hd d hm
    · apply toNat_map_inj
      rw [decodeChunk_eq]
      · simp only [digits8, List.map_cons, List.map_nil, List.getD_cons_zero, List.getD_cons_succ, bytes5, UInt8.toNat_ofNat',
          List.cons.injEq, and_true]
        omega
      · intro i
        rw [List.getD_eq_getElem?_getD]
        cases hg : ((digits8 b0.toNat b1.toNat b2.toNat b3.toNat b4.toNat).map UInt8.ofNat)[i]? with
        | none => simp
        | some w =>
          obtain ⟨d, hm, rfl⟩ := List.mem_map.mp (List.mem_of_getElem? hg)
          simp only [Option.getD_some]
          rw [ht d hm]; exact hd d hm

/-! ### Whole strings -/

theorem encodeChunk_length (c : Bytes) : (encodeChunk c).length = 8 := rfl
theorem decodeChunk_length (c : Bytes) : (decodeChunk c).length = 5 := rfl

theorem chunks_fuel (n : Nat) (hn : 0 < n) : ∀ (f g : Nat) (l : Bytes), l.length ≤ f → l.length ≤ g → chunks n f l = chunks n g l := by
  intro f
  induction f with
  | zero =>
    intro g l h1 _
    have : l = [] := List.length_eq_zero_iff.mp (by omega)
    subst this
    cases g <;> simp [chunks]
  | succ f ih =>
    intro g l h1 h2
    cases g with
    | zero =>
      have : l = [] := List.length_eq_zero_iff.mp (by omega)
      subst this
      simp [chunks]
    | succ g =>
      rw [chunks, chunks]
      split
      · rfl
      · rename_i hne
        have : 0 < l.length := by cases l <;> simp_all
        rw [ih g (l.drop n) (by simp; omega) (by simp; omega)]

theorem chunks_append (n : Nat) (hn : 0 < n) (a r : Bytes) (ha : a.length = n) :
    chunks n (a ++ r).length (a ++ r) = a :: chunks n r.length r := by
  obtain ⟨k, hk⟩ : ∃ k, (a ++ r).length = k + 1 := ⟨(a ++ r).length - 1, by simp; omega⟩
  have hne : (a ++ r).isEmpty = false := by cases a with
    | nil => simp at ha; omega
    | cons => rfl
  rw [hk, chunks, hne]
  simp only [Bool.false_eq_true, if_false]
  rw [← ha, List.take_left, List.drop_left, ha]
  congr 1
  apply chunks_fuel n hn
  · simp at hk; omega
  · exact Nat.le_refl _

theorem chunks_short (n : Nat) (a : Bytes) (ha : a.length ≤ n) (hne : a ≠ []) :
    chunks n a.length a = [a] := by
  obtain ⟨k, hk⟩ : ∃ k, a.length = k + 1 := ⟨a.length - 1, by have := List.length_pos_iff.mpr hne; omega⟩
  rw [hk, chunks, if_neg (by simpa using hne), List.take_of_length_le ha, List.drop_eq_nil_of_le ha]
  cases k <;> simp [chunks]

theorem encode_append (a r : Bytes) (ha : a.length = 5) : encode (a ++ r) = encodeChunk a ++ encode r := by
  unfold encode encodeData
  rw [chunks_append 5 (by decide) a r ha, List.map_cons, List.flatten_cons, List.length_append, ha,
    show ((5 + r.length) * 8 + 4) / 5 = 8 + (r.length * 8 + 4) / 5 by omega]
  rw [List.take_append, encodeChunk_length, List.take_of_length_le (by rw [encodeChunk_length]; omega)]
  congr 2
  omega

theorem encode_short (a : Bytes) (ha : a.length ≤ 5) : encode a = (encodeChunk a).take ((a.length * 8 + 4) / 5) := by
  by_cases hne : a = []
  · subst hne; rfl
  · unfold encode encodeData
    rw [chunks_short 5 a ha hne]; simp

theorem encode_length (k : Nat) : ∀ d : Bytes, d.length / 5 = k → (encode d).length = (d.length * 8 + 4) / 5 := by
  induction k with
  | zero =>
    intro d h
    rw [encode_short d (by omega), List.length_take, encodeChunk_length]; omega
  | succ k ih =>
    intro d h
    rw [← List.take_append_drop 5 d, encode_append _ _ (by simp; omega), List.length_append, encodeChunk_length,
      ih _ (by simp; omega)]
    simp
    omega

theorem decode_append (a r : Bytes) (ha : a.length = 8) :
    decode (a ++ r) = match chunkValues a with
      | none => none
      | some v => (decode r).map (decodeChunk v ++ ·) := by
  unfold decode
  have hl : (a ++ r).length % 8 = r.length % 8 := by simp; omega
  rw [hl]
  split
  · cases chunkValues a <;> rfl
  · unfold decodeData
    rw [chunks_append 8 (by decide) a r ha, decodeChunks]
    cases chunkValues a with
    | none => rfl
    | some v =>
      simp only []
      cases decodeChunks (chunks 8 r.length r) with
      | none => rfl
      | some ret =>
        simp only [Option.map_some]
        rw [List.length_append, ha, show (8 + r.length) * 5 / 8 = 5 + r.length * 5 / 8 by omega]
        have e1 : (decodeChunk v ++ ret).drop (5 + r.length * 5 / 8) = ret.drop (r.length * 5 / 8) := by
          rw [List.drop_append, decodeChunk_length, List.drop_eq_nil_of_le (by rw [decodeChunk_length]; omega)]
          simp
        have e2 : (decodeChunk v ++ ret).take (5 + r.length * 5 / 8) = decodeChunk v ++ ret.take (r.length * 5 / 8) := by
          rw [List.take_append, decodeChunk_length, List.take_of_length_le (by rw [decodeChunk_length]; omega)]
          simp
        rw [e1, e2]
        split <;> rfl

theorem decode_short (a : Bytes) (hne : a ≠ []) (ha : a.length = 2 ∨ a.length = 4 ∨ a.length = 5 ∨ a.length = 7) :
    decode a = match chunkValues a with
      | none => none
      | some v => if ((decodeChunk v).drop (a.length * 5 / 8)).any (fun c => c != 0) then none
          else some ((decodeChunk v).take (a.length * 5 / 8)) := by
  unfold decode
  rw [if_neg (by omega)]
  unfold decodeData
  rw [chunks_short 8 a (by omega) hne, decodeChunks]
  cases chunkValues a with
  | none => rfl
  | some v => simp [decodeChunks]

theorem chunkValues_append_zero (c : Bytes) (k : Nat) :
    chunkValues (c ++ List.replicate k 48) = (chunkValues c).map (· ++ List.replicate k 0) := by
  induction c with
  | nil =>
    induction k with
    | zero => rfl
    | succ k ih =>
      simp only [List.nil_append] at ih
      have h48 : charValue 48 = some 0 := by decide
      have hn : chunkValues [] = some [] := rfl
      rw [hn] at ih ⊢
      rw [List.replicate_succ, List.nil_append, chunkValues, h48]
      simp only [ih, Option.map_some, List.nil_append]
      rfl
  | cons x c ih =>
    rw [List.cons_append, chunkValues, chunkValues, ih]
    cases charValue x with
    | none => rfl
    | some w => cases chunkValues c <;> rfl

theorem getD_append_zero (v : Bytes) (k i : Nat) : (v ++ List.replicate k 0).getD i 0 = v.getD i 0 := by
  rw [List.getD_eq_getElem?_getD, List.getD_eq_getElem?_getD, List.getElem?_append]
  split
  · rfl
  · rename_i h
    rw [List.getElem?_eq_none (l := v) (by omega), List.getElem?_replicate]
    split <;> rfl

theorem decodeChunk_append_zero (v : Bytes) (k : Nat) : decodeChunk (v ++ List.replicate k 0) = decodeChunk v := by
  unfold decodeChunk; simp only [getD_append_zero]

theorem encodeChunk_append_zero (v : Bytes) (k : Nat) : encodeChunk (v ++ List.replicate k 0) = encodeChunk v := by
  unfold encodeChunk; simp only [getD_append_zero]

theorem encodeChunk_drop (b : Bytes) (h : b.length = 1 ∨ b.length = 2 ∨ b.length = 3 ∨ b.length = 4) :
    (encodeChunk b).drop ((b.length * 8 + 4) / 5) = List.replicate (8 - (b.length * 8 + 4) / 5) 48 := by
  rw [encodeChunk_eq]
  match b, h with
  | [a], _ => simp only [digits8]; simp; decide
  | [a, b], _ => simp only [digits8]; simp; decide
  | [a, b, c], _ => simp only [digits8]; simp; decide
  | [a, b, c, d], _ => simp only [digits8]; simp; decide

/-- A final partial chunk. -/
theorem partial_iff {c b : Bytes} (hb : b.length = 1 ∨ b.length = 2 ∨ b.length = 3 ∨ b.length = 4)
    (hc : c.length = (b.length * 8 + 4) / 5) :
    (∃ v, chunkValues c = some v ∧ ((decodeChunk v).drop b.length).any (fun c => c != 0) = false ∧
      (decodeChunk v).take b.length = b) ↔ c.map upperByte = (encodeChunk b).take c.length := by
  have key := chunk_iff (c := c ++ List.replicate (8 - c.length) 48) (b := b ++ List.replicate (5 - b.length) 0)
    (by simp; omega) (by simp; omega)
  rw [encodeChunk_append_zero] at key
  have h1 : (∃ v, chunkValues c = some v ∧ ((decodeChunk v).drop b.length).any (fun c => c != 0) = false ∧
      (decodeChunk v).take b.length = b) ↔
      ∃ v, chunkValues (c ++ List.replicate (8 - c.length) 48) = some v ∧ decodeChunk v = b ++ List.replicate (5 - b.length) 0 := by
    rw [chunkValues_append_zero]
    have e : ∀ v, (((decodeChunk v).drop b.length).any (fun c => c != 0) = false ∧ (decodeChunk v).take b.length = b) ↔
        decodeChunk v = b ++ List.replicate (5 - b.length) 0 := by
      intro v
      constructor
      · rintro ⟨h1, h2⟩
        rw [← List.take_append_drop b.length (decodeChunk v), h2]
        congr 1
        rw [List.eq_replicate_iff]
        refine ⟨by rw [List.length_drop, decodeChunk_length], ?_⟩
        intro x hx
        rw [List.any_eq_false] at h1
        simpa using h1 x hx
      · intro h
        rw [h, List.drop_left, List.take_left]
        refine ⟨?_, rfl⟩
        rw [List.any_eq_false]
        intro x hx
        rw [List.eq_of_mem_replicate hx]; decide
    simp only [e]
    constructor
    · rintro ⟨v, h1, h2⟩
      exact ⟨v ++ List.replicate (8 - c.length) 0, by rw [h1]; rfl, by rw [decodeChunk_append_zero]; exact h2⟩
    · rintro ⟨v, h1, h2⟩
      rw [Option.map_eq_some_iff] at h1
      obtain ⟨w, h3, rfl⟩ := h1
      rw [decodeChunk_append_zero] at h2
      exact ⟨w, h3, h2⟩
  rw [h1, key, List.map_append, List.map_replicate, show upperByte 48 = 48 by decide]
  have hd := encodeChunk_drop b hb
  rw [← hc] at hd
  constructor
  · intro h
    rw [← h, show c.length = (c.map upperByte).length by simp, List.take_left]
  · intro h
    rw [h, ← hd, List.take_append_drop]

/-- `decode` accepts exactly the encodings, ignoring case. -/
theorem decode_iff (k : Nat) : ∀ (s d : Bytes), s.length / 8 = k → (decode s = some d ↔ s.map upperByte = encode d) := by
  induction k with
  | zero =>
    intro s d hk
    have hlt : s.length < 8 := by omega
    have hel := encode_length _ d rfl
    by_cases hs : s = []
    · subst hs
      constructor
      · intro h
        have : d = [] := by
          have : decode [] = some [] := by decide
          rw [this] at h; simpa using h.symm
        subst this; rfl
      · intro h
        have := congrArg List.length h
        rw [hel] at this
        simp only [List.map_nil, List.length_nil] at this
        have : d = [] := List.length_eq_zero_iff.mp (by omega)
        subst this; decide
    · have hpos := List.length_pos_iff.mpr hs
      by_cases hm : s.length = 1 ∨ s.length = 3 ∨ s.length = 6
      · constructor
        · intro h
          unfold decode at h
          rw [if_pos (by omega)] at h
          simp at h
        · intro h
          have := congrArg List.length h
          rw [hel, List.length_map] at this
          omega
      · have hl : s.length = 2 ∨ s.length = 4 ∨ s.length = 5 ∨ s.length = 7 := by omega
        have hdec := decode_short s hs hl
        constructor
        · intro h
          rw [hdec] at h
          cases hv : chunkValues s with
          | none => rw [hv] at h; simp at h
          | some v =>
            rw [hv] at h
            simp only [] at h
            split at h
            · simp at h
            · rename_i hany
              simp only [Option.some.injEq] at h
              have hdl : d.length = s.length * 5 / 8 := by
                rw [← h, List.length_take, decodeChunk_length]; omega
              rw [← hdl] at h hany
              rw [encode_short d (by omega), show (d.length * 8 + 4) / 5 = s.length by omega]
              exact (partial_iff (b := d) (by omega) (by omega)).mp ⟨v, hv, by simpa using hany, h⟩
        · intro h
          have hlen := congrArg List.length h
          rw [hel, List.length_map] at hlen
          rw [encode_short d (by omega), ← hlen] at h
          obtain ⟨v, h1, h2, h3⟩ := (partial_iff (b := d) (by omega) (by omega)).mpr h
          rw [hdec, h1]
          simp only [show s.length * 5 / 8 = d.length by omega, h2, h3]
          simp
  | succ k ih =>
    intro s d hk
    have hs : s = s.take 8 ++ s.drop 8 := (List.take_append_drop 8 s).symm
    have hl8 : (s.take 8).length = 8 := by simp; omega
    have hdec := decode_append (s.take 8) (s.drop 8) hl8
    rw [← hs] at hdec
    have ih' := fun d => ih (s.drop 8) d (by simp; omega)
    constructor
    · intro h
      rw [hdec] at h
      cases hv : chunkValues (s.take 8) with
      | none => rw [hv] at h; simp at h
      | some v =>
        rw [hv] at h
        simp only [Option.map_eq_some_iff] at h
        obtain ⟨d', h1, rfl⟩ := h
        have h2 := (ih' d').mp h1
        have h3 := (chunk_iff hl8 (decodeChunk_length v)).mp ⟨v, hv, rfl⟩
        rw [encode_append _ _ (decodeChunk_length v), ← h2, ← h3, ← List.map_append, ← hs]
    · intro h
      have hlen := congrArg List.length h
      rw [encode_length _ d rfl, List.length_map] at hlen
      have hd : d = d.take 5 ++ d.drop 5 := (List.take_append_drop 5 d).symm
      have hl5 : (d.take 5).length = 5 := by simp; omega
      rw [hd, encode_append _ _ hl5, hs, List.map_append] at h
      obtain ⟨h1, h2⟩ := List.append_inj h (by rw [List.length_map, hl8, encodeChunk_length])
      obtain ⟨v, h3, h4⟩ := (chunk_iff hl8 hl5).mpr h1
      rw [hdec, h3]
      simp only [(ih' _).mpr h2, Option.map_some, h4]
      rw [← hd]

theorem upperByte_hexChar (v : Nat) : upperByte (hexChar v) = hexChar v := by
  by_cases h : v < 32
  · have : ∀ v : Fin 32, upperByte (hexChar v.val) = hexChar v.val := by decide +kernel
    exact this ⟨v, h⟩
  · unfold hexChar
    rw [List.getD_eq_getElem?_getD, List.getElem?_eq_none]
    · decide
    · rw [show (ascii "0123456789ABCDEFGHIJKLMNOPQRSTUV").length = 32 by decide]; omega

/-! ### The encoding is RFC 4648 -/

theorem digits32_length : ∀ m x, (digits32 m x).length = m
  | 0, _ => rfl
  | m + 1, x => by rw [digits32, List.length_append, digits32_length m]; rfl

theorem digits32_add (a : Nat) : ∀ (b x y : Nat), y < 32 ^ b → digits32 (a + b) (x * 32 ^ b + y) = digits32 a x ++ digits32 b y
  | 0, x, y, h => by
    have : y = 0 := by simpa using h
    subst this; simp [digits32]
  | b + 1, x, y, h => by
    rw [← Nat.add_assoc, digits32, digits32]
    have e1 : (x * 32 ^ (b + 1) + y) / 32 = x * 32 ^ b + y / 32 := by
      rw [Nat.pow_succ, ← Nat.mul_assoc, Nat.mul_comm _ 32, Nat.mul_add_div (by decide)]
    have e2 : (x * 32 ^ (b + 1) + y) % 32 = y % 32 := by
      rw [Nat.pow_succ, ← Nat.mul_assoc, Nat.mul_comm _ 32, Nat.mul_add_mod]
    rw [e1, e2, digits32_add a b x (y / 32) (by rw [Nat.div_lt_iff_lt_mul (by decide)]; rw [Nat.pow_succ] at h; exact h),
      List.append_assoc]

theorem beNat_append (a b : Bytes) : beNat (a ++ b) = beNat a * 256 ^ b.length + beNat b := by
  unfold beNat
  rw [List.foldl_append]
  generalize a.foldl (fun acc b => acc * 256 + b.toNat) 0 = x
  have key : ∀ (b : Bytes) (x y : Nat), b.foldl (fun acc b => acc * 256 + b.toNat) (x + y) =
      x * 256 ^ b.length + b.foldl (fun acc b => acc * 256 + b.toNat) y := by
    intro b
    induction b with
    | nil => intro x y; simp
    | cons c b ih =>
      intro x y
      simp only [List.foldl_cons, List.length_cons]
      rw [show (x + y) * 256 + c.toNat = x * 256 + (y * 256 + c.toNat) by omega, ih, Nat.pow_succ]
      congr 1
      rw [Nat.mul_assoc, Nat.mul_comm 256]
  have := key b x 0
  simpa using this

theorem beNat_lt (d : Bytes) : beNat d < 256 ^ d.length := by
  induction d with
  | nil => simp [beNat]
  | cons c d ih =>
    have h := beNat_append [c] d
    rw [List.singleton_append] at h
    rw [h, List.length_cons, Nat.pow_succ]
    have hc : beNat [c] ≤ 255 := by
      have := c.toNat_lt
      simp only [beNat, List.foldl_cons, List.foldl_nil]; omega
    have := Nat.mul_le_mul_right (256 ^ d.length) hc
    omega

theorem encodeChunk_rfc (b : Bytes) (h : b.length = 5) : encodeChunk b = (digits32 8 (beNat b)).map hexChar := by
  match b, h with
  | [b0, b1, b2, b3, b4], _ =>
  have g0 := b0.toNat_lt
  have g1 := b1.toNat_lt
  have g2 := b2.toNat_lt
  have g3 := b3.toNat_lt
  have g4 := b4.toNat_lt
  rw [encodeChunk_eq]
  simp only [List.getD_cons_zero, List.getD_cons_succ, digits8, digits32, beNat, List.foldl_cons, List.foldl_nil,
    List.nil_append, List.cons_append]
  congr 1
  simp only [List.cons.injEq, and_true]
  omega

theorem base32hex_append (a r : Bytes) (ha : a.length = 5) : base32hex (a ++ r) = encodeChunk a ++ base32hex r := by
  unfold base32hex
  simp only [List.length_append, ha]
  generalize hm : (8 * r.length + 4) / 5 = m
  rw [show (8 * (5 + r.length) + 4) / 5 = 8 + m by omega, show 5 * (8 + m) - 8 * (5 + r.length) = 5 * m - 8 * r.length by omega,
    beNat_append, Nat.add_mul, Nat.mul_assoc]
  have hp : 256 ^ r.length * 2 ^ (5 * m - 8 * r.length) = 32 ^ m := by
    rw [show (256 : Nat) = 2 ^ 8 by rfl, show (32 : Nat) = 2 ^ 5 by rfl, ← Nat.pow_mul, ← Nat.pow_mul, ← Nat.pow_add]
    congr 1; omega
  rw [hp, digits32_add 8 m _ _ (by
    rw [← hp]; exact Nat.mul_lt_mul_of_pos_right (beNat_lt r) (Nat.pow_pos (by decide))), List.map_append, encodeChunk_rfc a ha]

theorem base32hex_short (a : Bytes) (ha : a.length < 5) : base32hex a = (encodeChunk a).take ((a.length * 8 + 4) / 5) := by
  have e := encodeChunk_rfc (a ++ List.replicate (5 - a.length) 0) (by simp; omega)
  rw [encodeChunk_append_zero, beNat_append] at e
  have hz : ∀ k, beNat (List.replicate k 0) = 0 := by
    intro k
    induction k with
    | zero => rfl
    | succ k ih =>
      rw [List.replicate_succ]
      unfold beNat at ih ⊢
      simpa using ih
  rw [hz, List.length_replicate, Nat.add_zero] at e
  rw [e]
  unfold base32hex
  simp only
  generalize hm : (8 * a.length + 4) / 5 = m
  rw [show (a.length * 8 + 4) / 5 = m by omega]
  have hp : 256 ^ (5 - a.length) = 2 ^ (5 * m - 8 * a.length) * 32 ^ (8 - m) := by
    rw [show (256 : Nat) = 2 ^ 8 by rfl, show (32 : Nat) = 2 ^ 5 by rfl, ← Nat.pow_mul, ← Nat.pow_mul, ← Nat.pow_add]
    congr 1; omega
  rw [hp, ← Nat.mul_assoc]
  have := digits32_add m (8 - m) (beNat a * 2 ^ (5 * m - 8 * a.length)) 0 (Nat.pow_pos (by decide))
  rw [Nat.add_zero, show m + (8 - m) = 8 by omega] at this
  rw [this, List.map_append]
  rw [List.take_append_of_le_length (by rw [List.length_map, digits32_length]; exact Nat.le_refl _),
    List.take_of_length_le (by rw [List.length_map, digits32_length]; exact Nat.le_refl _)]

theorem encode_rfc (k : Nat) : ∀ d : Bytes, d.length / 5 = k → encode d = base32hex d := by
  induction k with
  | zero => intro d h; rw [encode_short d (by omega), base32hex_short d (by omega)]
  | succ k ih =>
    intro d h
    rw [← List.take_append_drop 5 d, encode_append _ _ (by simp; omega), base32hex_append _ _ (by simp; omega),
      ih _ (by simp; omega)]

theorem upperByte_toUpper (c : UInt8) : upperByte c = toUpper c := by
  have : ∀ c : Fin 256, upperByte (UInt8.ofNat c.val) = toUpper (UInt8.ofNat c.val) := by decide +kernel
  have := this ⟨c.toNat, c.toNat_lt⟩
  simpa using this

theorem decode_iff_hex (s d : Bytes) : decode s = some d ↔ s.map toUpper = base32hex d := by
  rw [decode_iff _ s d rfl, encode_rfc _ d rfl, show upperByte = toUpper from funext upperByte_toUpper]

end Dnssec.Base32
