import Verif.Model.Json
import Verif.Spec.Json
import Verif.Proofs.Name
import Verif.Proofs.Utf8
import Verif.Proofs.BitmapMeaning

/-! # JSON output -/

namespace Dnssec

open Spec

/-! ### UTF-8 -/

theorem utf8Decode_cons {b0 : UInt8} (h : b0 < 0x80) (rest : Bytes) :
    utf8Decode (b0 :: rest) = (utf8Decode rest).map (b0.toNat :: ·) := by
  rw [utf8Decode.eq_def]
  simp only
  rw [if_pos h]

theorem utf8Decode_append {a : Bytes} : ∀ {x : List Nat}, utf8Decode a = some x → ∀ b, utf8Decode (a ++ b) = (utf8Decode b).map (x ++ ·) := by
  fun_induction utf8Decode a with
  | case1 =>
    intro x h b
    simp only [Option.some.injEq] at h
    subst h
    cases hb : utf8Decode b <;> simp [hb]
  | case2 b0 rest h0 ih =>
    intro x h b
    rw [Option.map_eq_some_iff] at h
    obtain ⟨y, hy, rfl⟩ := h
    rw [List.cons_append, utf8Decode_cons h0, ih hy]
    cases utf8Decode b <;> simp
  | case3 b0 h0 h1 b1 r hc ih =>
    intro x h b
    rw [Option.map_eq_some_iff] at h
    obtain ⟨y, hy, rfl⟩ := h
    simp only [List.cons_append]
    rw [utf8Decode, if_neg h0, if_pos h1]
    simp only [hc, if_true]
    rw [ih hy]
    cases utf8Decode b <;> simp
  | case4 => intro x h; simp at h
  | case5 => intro x h; simp at h
  | case6 b0 h0 h1 h2 b1 b2 r hc ih =>
    intro x h b
    rw [Option.map_eq_some_iff] at h
    obtain ⟨y, hy, rfl⟩ := h
    simp only [List.cons_append]
    rw [utf8Decode, if_neg h0, if_neg h1, if_pos h2]
    simp only [hc, if_true]
    rw [ih hy]
    cases utf8Decode b <;> simp
  | case7 => intro x h; simp at h
  | case8 => intro x h; simp at h
  | case9 b0 h0 h1 h2 h3 b1 b2 b3 r hc ih =>
    intro x h b
    rw [Option.map_eq_some_iff] at h
    obtain ⟨y, hy, rfl⟩ := h
    simp only [List.cons_append]
    rw [utf8Decode, if_neg h0, if_neg h1, if_neg h2, if_pos h3]
    simp only [hc, if_true]
    rw [ih hy]
    cases utf8Decode b <;> simp
  | case10 => intro x h; simp at h
  | case11 => intro x h; simp at h
  | case12 => intro x h; simp at h

theorem utf8Valid_append {a b : Bytes} (ha : utf8Valid a = true) (hb : utf8Valid b = true) : utf8Valid (a ++ b) = true := by
  unfold utf8Valid at *
  rw [Option.isSome_iff_exists] at ha hb ⊢
  obtain ⟨x, hx⟩ := ha
  obtain ⟨y, hy⟩ := hb
  exact ⟨x ++ y, by rw [utf8Decode_append hx, hy]; rfl⟩

theorem utf8Decode_ascii : ∀ {a : Bytes}, (∀ c ∈ a, c.toNat < 128) → utf8Decode a = some (a.map UInt8.toNat)
  | [], _ => rfl
  | c :: cs, h => by
    have hc : c < 0x80 := UInt8.lt_iff_toNat_lt.mpr (h c (by simp))
    rw [utf8Decode_cons hc, utf8Decode_ascii (fun c hc => h c (by simp [hc]))]
    rfl

theorem utf8Valid_ascii {a : Bytes} (h : ∀ c ∈ a, c.toNat < 128) : utf8Valid a = true := by
  unfold utf8Valid; rw [utf8Decode_ascii h]; rfl

/-- An ASCII byte of a valid string is one of its characters. -/
theorem utf8Decode_mem {a : Bytes} : ∀ {x : List Nat}, utf8Decode a = some x → ∀ c ∈ a, c.toNat < 128 → c.toNat ∈ x := by
  have cont : ∀ b : UInt8, utf8Cont b = true → ¬ b.toNat < 128 := by
    intro b h
    unfold utf8Cont at h
    simp only [Bool.and_eq_true, decide_eq_true_eq] at h
    have := UInt8.le_iff_toNat_le.mp h.1
    have e : (0x80 : UInt8).toNat = 128 := rfl
    omega
  fun_induction utf8Decode a with
  | case1 => simp
  | case2 b0 rest h0 ih =>
    intro x h c hc hl
    rw [Option.map_eq_some_iff] at h
    obtain ⟨y, hy, rfl⟩ := h
    rcases List.mem_cons.mp hc with rfl | hc
    · simp
    · exact List.mem_cons_of_mem _ (ih hy c hc hl)
  | case3 b0 h0 h1 b1 r hb ih =>
    intro x h c hc hl
    rw [Option.map_eq_some_iff] at h
    obtain ⟨y, hy, rfl⟩ := h
    have h0' : ¬ b0.toNat < 128 := fun hlt => h0 (UInt8.lt_iff_toNat_lt.mpr hlt)
    simp only [List.mem_cons] at hc
    rcases hc with rfl | rfl | hc
    · exact absurd hl h0'
    · exact absurd hl (cont _ hb)
    · exact List.mem_cons_of_mem _ (ih hy c hc hl)
  | case4 => intro x h; simp at h
  | case5 => intro x h; simp at h
  | case6 b0 h0 h1 h2 b1 b2 r hb ih =>
    intro x h c hc hl
    rw [Option.map_eq_some_iff] at h
    obtain ⟨y, hy, rfl⟩ := h
    have h0' : ¬ b0.toNat < 128 := fun hlt => h0 (UInt8.lt_iff_toNat_lt.mpr hlt)
    simp only [Bool.and_eq_true] at hb
    simp only [List.mem_cons] at hc
    rcases hc with rfl | rfl | rfl | hc
    · exact absurd hl h0'
    · exact absurd hl (cont _ hb.1.1.1)
    · exact absurd hl (cont _ hb.1.1.2)
    · exact List.mem_cons_of_mem _ (ih hy c hc hl)
  | case7 => intro x h; simp at h
  | case8 => intro x h; simp at h
  | case9 b0 h0 h1 h2 h3 b1 b2 b3 r hb ih =>
    intro x h c hc hl
    rw [Option.map_eq_some_iff] at h
    obtain ⟨y, hy, rfl⟩ := h
    have h0' : ¬ b0.toNat < 128 := fun hlt => h0 (UInt8.lt_iff_toNat_lt.mpr hlt)
    simp only [Bool.and_eq_true] at hb
    simp only [List.mem_cons] at hc
    rcases hc with rfl | rfl | rfl | rfl | hc
    · exact absurd hl h0'
    · exact absurd hl (cont _ hb.1.1.1.1)
    · exact absurd hl (cont _ hb.1.1.1.2)
    · exact absurd hl (cont _ hb.1.1.2)
    · exact List.mem_cons_of_mem _ (ih hy c hc hl)
  | case10 => intro x h; simp at h
  | case11 => intro x h; simp at h
  | case12 => intro x h; simp at h

/-! ### Numbers -/

theorem digit_toNat {n : Nat} (h : n < 10) : (digit n).toNat = 48 + n := by
  unfold digit; rw [UInt8.toNat_ofNat']; omega

theorem digitsValue_append (a : Bytes) (d : UInt8) : digitsValue (a ++ [d]) = digitsValue a * 10 + (d.toNat - 48) := by
  simp [digitsValue]

theorem decimalAux_int : ∀ (f n : Nat), n ≤ f + 9 → IntText (decimalAux f n) n ∧ (0 < n → (decimalAux f n).head? ≠ some 48)
  | f, n, h => by
    have small : n < 10 → IntText [digit n] n ∧ (0 < n → [digit n].head? ≠ some 48) := by
      intro hn
      have hd := digit_toNat hn
      have ne : 0 < n → digit n ≠ 48 := by
        intro h0 e
        rw [e] at hd
        have : (48 : UInt8).toNat = 48 := rfl
        omega
      refine ⟨⟨?_, by simp, ?_, ?_⟩, ?_⟩
      · intro c hc
        rw [List.mem_singleton] at hc
        subst hc
        omega
      · rcases Nat.eq_zero_or_pos n with rfl | h0
        · left; rfl
        · right; simp [ne h0]
      · simp [digitsValue, hd]
      · intro h0; simp [ne h0]
    cases f with
    | zero =>
      rw [decimalAux]
      exact small (by omega)
    | succ f =>
      rw [decimalAux]
      split
      · rename_i hn
        exact small hn
      · rename_i hn
        obtain ⟨ih, ih2⟩ := decimalAux_int f (n / 10) (by omega)
        have hd := digit_toNat (n := n % 10) (by omega)
        have hpos : 0 < n / 10 := by omega
        have hh : (decimalAux f (n / 10) ++ [digit (n % 10)]).head? ≠ some 48 := by
          have h2 := ih2 hpos
          have h3 := ih.nonempty
          cases hd : decimalAux f (n / 10) with
          | nil => exact absurd hd h3
          | cons x xs => rw [hd] at h2; simpa using h2
        refine ⟨⟨?_, by simp, Or.inr hh, ?_⟩, fun _ => hh⟩
        · intro c hc
          rcases List.mem_append.mp hc with hc | hc
          · exact ih.digits c hc
          · rw [List.mem_singleton] at hc
            subst hc
            omega
        · rw [digitsValue_append, ← ih.value, hd]
          omega

theorem decimal_int (n : Nat) : IntText (decimal n) n := (decimalAux_int n n (by omega)).1

/-! ### Values -/

theorem ws_nil : Ws [] := by simp [Ws]
theorem ws_space : Ws [32] := by simp [Ws]

/-- Bytes that stand for themselves in a JSON string. -/
def Plain (s : Bytes) : Prop := ∀ c ∈ s, 32 ≤ c.toNat ∧ c ≠ 34 ∧ c ≠ 92

instance (s : Bytes) : Decidable (Plain s) := by unfold Plain; infer_instance

theorem plain_chars : ∀ {s : Bytes}, Plain s → Chars s s
  | [], _ => .nil
  | c :: cs, h => by
    obtain ⟨h1, h2, h3⟩ := h c (by simp)
    exact .plain h1 h2 h3 (plain_chars fun c hc => h c (by simp [hc]))

theorem value_decimal (n : Nat) : Value (decimal n) (.nat n) := .nat (decimal_int n)

theorem value_str {s : Bytes} (h : Plain s) : Value (34 :: (s ++ [34])) (.str s) := .str (plain_chars h)

/-- Members written without whitespace. -/
def renderMembers : List (Bytes × Bytes) → Bytes
  | [] => []
  | [(k, v)] => 34 :: (k ++ (34 :: 58 :: v))
  | (k, v) :: ms => 34 :: (k ++ (34 :: 58 :: (v ++ 44 :: renderMembers ms)))

theorem members_render : ∀ (ms : List (Bytes × Bytes × JVal)), ms ≠ [] → (∀ m ∈ ms, Plain m.1 ∧ Value m.2.1 m.2.2) →
    Members (renderMembers (ms.map (fun m => (m.1, m.2.1)))) (ms.map (fun m => (m.1, m.2.2)))
  | [], h, _ => absurd rfl h
  | [(k, t, v)], _, h => by
    obtain ⟨h1, h2⟩ := h (k, t, v) (by simp)
    have := Members.one ws_nil (plain_chars h1) ws_nil ws_nil h2 ws_nil
    simpa [renderMembers] using this
  | (k, t, v) :: m2 :: ms, _, h => by
    obtain ⟨h1, h2⟩ := h (k, t, v) (by simp)
    have ih := members_render (m2 :: ms) (by simp) (fun m hm => h m (by simp [List.mem_cons.mp hm]))
    have := Members.cons ws_nil (plain_chars h1) ws_nil ws_nil h2 ws_nil ih
    simpa [renderMembers] using this

theorem value_obj (ms : List (Bytes × Bytes × JVal)) (hne : ms ≠ []) (h : ∀ m ∈ ms, Plain m.1 ∧ Value m.2.1 m.2.2) :
    Value (123 :: (renderMembers (ms.map (fun m => (m.1, m.2.1))) ++ [125])) (.obj (ms.map (fun m => (m.1, m.2.2)))) :=
  .obj (members_render ms hne h)

theorem elems_debug : ∀ (w bs : Bytes), Ws w → bs ≠ [] → Elems (w ++ debugElems bs) (bs.map (fun b => .nat b.toNat))
  | _, [], _, h => absurd rfl h
  | w, [b], hw, _ => by
    have := Elems.one hw (value_decimal b.toNat) ws_nil
    simpa [debugElems] using this
  | w, b :: b2 :: bs, hw, _ => by
    have ih := elems_debug [32] (b2 :: bs) ws_space (by simp)
    have := Elems.cons hw (value_decimal b.toNat) ws_nil ih
    exact this

theorem value_debug (bs : Bytes) : Value (debugBytes bs) (bytesArr bs) := by
  unfold debugBytes bytesArr
  by_cases h : bs = []
  · subst h
    exact .arrEmpty ws_nil
  · exact .arr (elems_debug [] bs ws_nil h)

/-! ### Hexadecimal -/

theorem hexDigit_spec : ∀ n, n < 16 → hexValue (hexDigit n) = some n ∧ 48 ≤ (hexDigit n).toNat ∧ (hexDigit n).toNat ≤ 70 := by decide

theorem hex_cons (b : UInt8) (bs : Bytes) : hex (b :: bs) = hexDigit (b.toNat / 16) :: hexDigit (b.toNat % 16) :: hex bs := rfl

theorem hex_bytes : ∀ (bs : Bytes), ∀ c ∈ hex bs, 48 ≤ c.toNat ∧ c.toNat ≤ 70
  | [] => by simp [hex]
  | b :: bs => by
    intro c hc
    rw [hex_cons] at hc
    have hb := b.toNat_lt
    simp only [List.mem_cons] at hc
    rcases hc with rfl | rfl | hc
    · exact (hexDigit_spec _ (by omega)).2
    · exact (hexDigit_spec _ (by omega)).2
    · exact hex_bytes bs c hc

theorem hex_plain (bs : Bytes) : Plain (hex bs) := by
  intro c hc
  obtain ⟨h1, h2⟩ := hex_bytes bs c hc
  refine ⟨by omega, ?_, ?_⟩
  · rintro rfl; revert h1; decide
  · rintro rfl; revert h2; decide

theorem hex_isHex : ∀ (bs : Bytes), IsHex bs (hex bs)
  | [] => ⟨rfl, by simp⟩
  | b :: bs => by
    obtain ⟨h1, h2⟩ := hex_isHex bs
    rw [hex_cons]
    have hb := b.toNat_lt
    refine ⟨by simp [h1]; omega, ?_⟩
    intro i c hi
    cases i with
    | zero =>
      simp only [List.getElem?_cons_zero, Option.some.injEq] at hi
      subst hi
      exact ⟨_, _, _, _, rfl, rfl, (hexDigit_spec _ (by omega)).1, (hexDigit_spec _ (by omega)).1, by omega⟩
    | succ i =>
      simp only [List.getElem?_cons_succ] at hi
      obtain ⟨h, l, x, y, a, b', c', d, e⟩ := h2 i c hi
      refine ⟨h, l, x, y, ?_, ?_, c', d, e⟩
      · rw [show 2 * (i + 1) = 2 * i + 1 + 1 by omega]; simpa using a
      · rw [show 2 * (i + 1) + 1 = (2 * i + 1) + 1 + 1 by omega]; simpa using b'

end Dnssec
