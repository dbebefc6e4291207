import Verif.Proofs.Bitmap

/-! # What a bitmap means -/

namespace Dnssec

open Spec

theorem copyInto_get (m : FixedBytes 8192) (off : Nat) (src : Bytes) (h : off + src.length ≤ 8192) (j : Nat) :
    (copyInto m off src h).1[j]? = if off ≤ j ∧ j < off + src.length then src[j - off]? else m.1[j]? := by
  have hm := m.2
  unfold copyInto
  simp only []
  rw [List.append_assoc, List.getElem?_append, List.length_take, Nat.min_eq_left (by omega), List.getElem?_append]
  split
  · rename_i hj
    rw [if_neg (by omega), List.getElem?_take_of_lt hj]
  · rename_i hj
    split
    · rw [if_pos (by omega)]
    · rw [if_neg (by omega), List.getElem?_drop]; congr 1; omega

theorem readBitmap_windows (ws : List (Nat × Bytes)) : ∀ (fuel : Nat) (res : FixedBytes 8192),
    ws.Pairwise (fun a b => a.1 ≠ b.1) → (∀ w ∈ ws, w.1 < 256 ∧ w.2.length ≤ 32) → (windows ws).length ≤ fuel →
    ∃ out, readBitmapLoop fuel (windows ws) res = .ok out ∧
      ∀ j, (∀ w ∈ ws, w.1 = j / 32 → j % 32 < w.2.length → out.1[j]? = w.2[j % 32]?) ∧
        ((∀ w ∈ ws, ¬ (w.1 = j / 32 ∧ j % 32 < w.2.length)) → out.1[j]? = res.1[j]?) := by
  induction ws with
  | nil =>
    intro fuel res _ _ _
    refine ⟨res, by cases fuel <;> simp [readBitmapLoop, windows], ?_⟩
    intro j; exact ⟨by simp, fun _ => rfl⟩
  | cons w ws ih =>
    intro fuel res hp hw hf
    rw [List.pairwise_cons] at hp
    obtain ⟨hw1, hw2⟩ := hw w (by simp)
    have hwin : windows (w :: ws) = UInt8.ofNat w.1 :: UInt8.ofNat w.2.length :: (w.2 ++ windows ws) := by simp [windows]
    rw [hwin] at hf ⊢
    cases fuel with
    | zero => simp at hf
    | succ fuel =>
      have hk8 : (UInt8.ofNat w.1).toNat = w.1 := by rw [UInt8.toNat_ofNat']; omega
      have hl8 : (UInt8.ofNat w.2.length).toNat = w.2.length := by rw [UInt8.toNat_ofNat']; omega
      have hle : w.1 * 32 + w.2.length ≤ 8192 := by omega
      have hstep : readBitmapLoop (fuel + 1) (UInt8.ofNat w.1 :: UInt8.ofNat w.2.length :: (w.2 ++ windows ws)) res =
          readBitmapLoop fuel (windows ws) (copyInto res (w.1 * 32) w.2 hle) := by
        simp only [readBitmapLoop, hk8, hl8, List.take_left, List.drop_left]
        rw [if_neg (by simp), dif_pos hle]
      rw [hstep]
      obtain ⟨out, h1, h2⟩ := ih fuel (copyInto res (w.1 * 32) w.2 hle) hp.2 (fun x hx => hw x (by simp [hx]))
        (by simp at hf; omega)
      refine ⟨out, h1, ?_⟩
      intro j
      obtain ⟨a1, a2⟩ := h2 j
      constructor
      · intro x hx e1 e2
        rcases List.mem_cons.mp hx with rfl | hx
        · rw [a2, copyInto_get, if_pos (by omega)]
          · congr 1; omega
          · intro y hy ⟨e3, _⟩
            exact hp.1 y hy (by omega)
        · exact a1 x hx e1 e2
      · intro hno
        rw [a2 (fun y hy => hno y (by simp [hy])), copyInto_get, if_neg]
        have := hno w (by simp)
        omega

theorem testBit_lemma : ∀ (f : Fin 256) (k : Fin 8),
    (UInt8.ofFin f &&& (1 <<< (UInt8.ofNat k.val)) != 0) = f.val.testBit k.val := by decide +kernel

theorem containsType_iff (m : NSecTypeMask) (t : UInt16) :
    m.containsType t = true ↔ ∃ b, m.bytes.1[t.toNat / 8]? = some b ∧ b.toNat.testBit (7 - t.toNat % 8) = true := by
  have hm := m.bytes.2
  have ht := t.toNat_lt
  have key : ∀ f : UInt8, (f &&& (1 <<< (UInt8.ofNat (7 - t.toNat % 8))) != 0) = f.toNat.testBit (7 - t.toNat % 8) := by
    intro f
    have := testBit_lemma f.toFin ⟨7 - t.toNat % 8, by omega⟩
    simpa using this
  unfold NSecTypeMask.containsType
  simp only [key, Nat.shiftRight_eq_div_pow, show 2 ^ 3 = 8 from rfl]
  rw [List.getElem?_eq_getElem (by omega)]
  simp

theorem bitmap_meaning (ws : List (Nat × Bytes)) (hp : ws.Pairwise (fun a b => a.1 ≠ b.1))
    (hw : ∀ w ∈ ws, w.1 < 256 ∧ w.2.length ≤ 32) :
    ∃ m, readNsecTypesBitmap (windows ws) = .ok m ∧ ∀ t : UInt16, m.containsType t = true ↔ BitmapHas ws t.toNat := by
  obtain ⟨out, h1, h2⟩ := readBitmap_windows ws (windows ws).length NSecTypeMask.new.bytes hp hw (Nat.le_refl _)
  refine ⟨⟨out⟩, by unfold readNsecTypesBitmap; rw [h1]; rfl, ?_⟩
  intro t
  have ht := t.toNat_lt
  rw [containsType_iff]
  obtain ⟨a1, a2⟩ := h2 (t.toNat / 8)
  have d1 : t.toNat / 8 / 32 = t.toNat / 256 := by omega
  have d2 : t.toNat / 8 % 32 = t.toNat % 256 / 8 := by omega
  rw [d1, d2] at a1 a2
  constructor
  · rintro ⟨b, e1, e2⟩
    by_cases hex : ∃ w ∈ ws, w.1 = t.toNat / 256 ∧ t.toNat % 256 / 8 < w.2.length
    · obtain ⟨w, hw', e3, e4⟩ := hex
      refine ⟨w, hw', e3, b, ?_, e2⟩
      rw [← a1 w hw' e3 e4]; exact e1
    · have := a2 (fun w hw' hc => hex ⟨w, hw', hc⟩)
      simp only [] at e1
      rw [this] at e1
      have hz : b = 0 := by
        unfold NSecTypeMask.new at e1
        simp only [List.getElem?_replicate] at e1
        split at e1
        · simpa using e1.symm
        · simp at e1
      subst hz
      simp at e2
  · rintro ⟨w, hw', e1, b, e2, e3⟩
    have hlt : t.toNat % 256 / 8 < w.2.length := by
      rcases List.getElem?_eq_some_iff.mp e2 with ⟨h, _⟩; exact h
    exact ⟨b, by rw [a1 w hw' e1 hlt]; exact e2, e3⟩

end Dnssec
