import Verif.Proofs.Bytes
import Verif.Spec.Wire

/-! # Type masks and NSEC bitmaps -/

namespace Dnssec

open Spec

/-! ### Membership -/

theorem bit_lemma : ∀ (f : Fin 256) (i j : Fin 8),
    ((UInt8.ofFin f ||| (1 <<< (UInt8.ofNat i.val))) &&& (1 <<< (UInt8.ofNat j.val)) != 0) =
      ((UInt8.ofFin f &&& (1 <<< (UInt8.ofNat j.val)) != 0) || decide (i = j)) := by decide +kernel

theorem bit_lemma' (f : UInt8) (i j : Nat) (hi : i < 8) (hj : j < 8) :
    ((f ||| (1 <<< (UInt8.ofNat i))) &&& (1 <<< (UInt8.ofNat j)) != 0) =
      ((f &&& (1 <<< (UInt8.ofNat j)) != 0) || decide (i = j)) := by
  have := bit_lemma f.toFin ⟨i, hi⟩ ⟨j, hj⟩
  simpa using this

theorem containsType_setType (m : NSecTypeMask) (t u : UInt16) :
    (m.setType t).containsType u = (m.containsType u || decide (u = t)) := by
  unfold NSecTypeMask.containsType NSecTypeMask.setType
  simp only [List.getElem_modify]
  by_cases h : t.toNat >>> 3 = u.toNat >>> 3
  · rw [if_pos h, bit_lemma' _ _ _ (by omega) (by omega)]
    congr 1
    rw [Nat.shiftRight_eq_div_pow, Nat.shiftRight_eq_div_pow] at h
    rw [decide_eq_decide, ← UInt16.toNat_inj]
    omega
  · rw [if_neg h]
    have : u ≠ t := fun e => h (by rw [e])
    simp [this]

theorem containsType_new (u : UInt16) : NSecTypeMask.new.containsType u = false := by
  unfold NSecTypeMask.containsType NSecTypeMask.new
  simp only [List.getElem_replicate]
  simp

theorem containsType_foldl (ts : List UInt16) (m : NSecTypeMask) (u : UInt16) :
    (ts.foldl NSecTypeMask.setType m).containsType u = (m.containsType u || decide (u ∈ ts)) := by
  induction ts generalizing m with
  | nil => simp
  | cons t ts ih =>
    rw [List.foldl_cons, ih, containsType_setType, Bool.or_assoc]
    congr 1
    simp

/-! ### Writing -/

theorem rposNonzero_none {l : Bytes} (h : rposNonzero l = none) : l = List.replicate l.length 0 := by
  induction l with
  | nil => rfl
  | cons b bs ih =>
    unfold rposNonzero at h
    split at h
    · simp at h
    · rename_i hn
      split at h
      · simp at h
      · rename_i hb
        have hb : b = 0 := by simpa using hb
        have := ih hn
        rw [List.length_cons, List.replicate_succ, ← this, hb]

theorem rposNonzero_some {l : Bytes} {i : Nat} (h : rposNonzero l = some i) :
    ∃ init last, l = init ++ last :: List.replicate (l.length - (i + 1)) 0 ∧ init.length = i ∧ last ≠ 0 ∧ i < l.length := by
  induction l generalizing i with
  | nil => simp [rposNonzero] at h
  | cons b bs ih =>
    unfold rposNonzero at h
    split at h
    · rename_i j hj
      obtain ⟨init, last, h1, h2, h3, h4⟩ := ih hj
      simp only [Option.some.injEq] at h
      subst h
      refine ⟨b :: init, last, ?_, by simp [h2], h3, by simp; omega⟩
      rw [List.length_cons, Nat.add_sub_add_right, List.cons_append, ← h1]
    · rename_i hn
      split at h
      · rename_i hb
        simp only [Option.some.injEq] at h
        subst h
        refine ⟨[], b, ?_, rfl, by simpa using hb, by simp⟩
        simp [← rposNonzero_none hn]
      · simp at h

/-- A window with something in it is written as a canonical window. -/
theorem writeWindow_eq {c : Bytes} (hc : c.length = 32) (k : Nat) :
    (c = List.replicate 32 0 ∧ writeWindow k c = []) ∨
    (∃ w, c = w ++ List.replicate (32 - w.length) 0 ∧ 1 ≤ w.length ∧ w.length ≤ 32 ∧ (∃ init last, w = init ++ [last] ∧ last ≠ 0) ∧
      writeWindow k c = UInt8.ofNat k :: UInt8.ofNat w.length :: w ∧ (rposNonzero c).getD 0 + 1 = w.length ∧
      c ≠ List.replicate 32 0) := by
  by_cases h : c = List.replicate 32 0
  · exact Or.inl ⟨h, by simp [writeWindow, h]⟩
  · right
    cases hp : rposNonzero c with
    | none => exact absurd (by rw [← hc]; exact rposNonzero_none hp) h
    | some i =>
      obtain ⟨init, last, h1, h2, h3, h4⟩ := rposNonzero_some hp
      refine ⟨init ++ [last], ?_, by simp, by simp; omega, ⟨init, last, rfl, h3⟩, ?_, by simp [h2], h⟩
      · rw [h1]; simp; omega
      · unfold writeWindow
        rw [if_pos h]
        simp only [hp, Option.getD_some]
        have e : c.take (i + 1) = init ++ [last] := by
          rw [h1, ← h2]
          rw [show init ++ last :: List.replicate (c.length - (init.length + 1)) 0 =
            (init ++ [last]) ++ List.replicate (c.length - (init.length + 1)) 0 by simp]
          rw [List.take_left' (by simp)]
        rw [e]
        congr 2
        rw [← UInt8.toNat_inj]
        simp [h2]

/-- Writing chunks starting at window `k`. -/
def writeChunks (k : Nat) (cs : List Bytes) : Bytes := ((cs.zipIdx k).map (fun (flags, idx) => writeWindow idx flags)).flatten

@[simp] theorem writeChunks_nil (k : Nat) : writeChunks k [] = [] := rfl

@[simp] theorem writeChunks_cons (k : Nat) (c : Bytes) (cs : List Bytes) :
    writeChunks k (c :: cs) = writeWindow k c ++ writeChunks (k + 1) cs := by simp [writeChunks]

theorem writeNsecTypesBitmap_eq (t : Bytes) : writeNsecTypesBitmap t = writeChunks 0 (chunks32 t.length t) := rfl

theorem chunks32_props (n : Nat) : ∀ (l : Bytes) (fuel : Nat), l.length = 32 * n → l.length ≤ fuel →
    (chunks32 fuel l).length = n ∧ (∀ c ∈ chunks32 fuel l, c.length = 32) ∧ (chunks32 fuel l).flatten = l := by
  induction n with
  | zero =>
    intro l fuel h1 h2
    have : l = [] := by cases l <;> simp_all
    subst this
    cases fuel <;> simp [chunks32]
  | succ n ih =>
    intro l fuel h1 h2
    cases fuel with
    | zero => omega
    | succ fuel =>
      have hne : l.isEmpty = false := by cases l <;> simp_all
      have hd : (l.drop 32).length = 32 * n := by simp; omega
      obtain ⟨i1, i2, i3⟩ := ih (l.drop 32) fuel hd (by simp; omega)
      unfold chunks32
      simp only [hne, Bool.false_eq_true, if_false, List.length_cons, List.flatten_cons, i1, i3, List.take_append_drop,
        List.mem_cons, true_and, and_true]
      rintro c (rfl | hc)
      · simp; omega
      · exact i2 c hc

theorem readBitmap_chunks (cs : List Bytes) : ∀ (k : Nat) (P : Bytes) (fuel : Nat) (res : FixedBytes 8192),
    (∀ c ∈ cs, c.length = 32) → k + cs.length = 256 → P.length = 32 * k → res.1 = P ++ List.replicate (32 * cs.length) 0 →
    (writeChunks k cs).length ≤ fuel →
    ∃ h, readBitmapLoop fuel (writeChunks k cs) res = .ok ⟨P ++ cs.flatten, h⟩ := by
  induction cs with
  | nil =>
    intro k P fuel res _ hk hP hres _
    have hr : P ++ ([] : List Bytes).flatten = res.1 := by simpa using hres.symm
    refine ⟨by rw [hr]; exact res.2, ?_⟩
    have e : readBitmapLoop fuel (writeChunks k []) res = .ok res := by
      cases fuel <;> simp [readBitmapLoop]
    rw [e]; congr 1; apply Subtype.ext; exact hr.symm
  | cons c cs ih =>
    intro k P fuel res hcs hk hP hres hf
    simp only [List.length_cons] at hk
    have hc := hcs c (by simp)
    rcases writeWindow_eq hc k with ⟨h0, hw⟩ | ⟨w, hw1, hw2, hw3, _, hw, _, _⟩
    · rw [writeChunks_cons, hw, List.nil_append] at hf ⊢
      have := ih (k + 1) (P ++ c) fuel res (fun x hx => hcs x (by simp [hx])) (by omega) (by simp [hP, hc]; omega)
        (by rw [hres, h0, List.append_assoc, List.length_cons, Nat.mul_add, Nat.add_comm,
          List.replicate_append_replicate])
        hf
      simpa [List.append_assoc] using this
    · rw [writeChunks_cons, hw] at hf ⊢
      cases fuel with
      | zero => simp at hf
      | succ fuel =>
        have hk8 : (UInt8.ofNat k).toNat = k := by rw [UInt8.toNat_ofNat']; omega
        have hl8 : (UInt8.ofNat w.length).toNat = w.length := by rw [UInt8.toNat_ofNat']; omega
        have hstep : ∃ h, readBitmapLoop (fuel + 1) (UInt8.ofNat k :: UInt8.ofNat w.length :: w ++ writeChunks (k + 1) cs) res =
            readBitmapLoop fuel (writeChunks (k + 1) cs) (copyInto res (k * 32) w h) := by
          refine ⟨by omega, ?_⟩
          simp only [List.cons_append, readBitmapLoop, hk8, hl8, List.take_left, List.drop_left]
          rw [if_neg (by simp), dif_pos (by omega)]
        obtain ⟨h, hstep⟩ := hstep
        rw [hstep]
        have := ih (k + 1) (P ++ c) fuel (copyInto res (k * 32) w h) (fun x hx => hcs x (by simp [hx])) (by omega)
          (by simp [hP, hc]; omega) ?_ (by simp at hf; omega)
        · simpa [List.append_assoc] using this
        · unfold copyInto
          simp only [hres]
          rw [List.take_left' (by omega), ← List.drop_drop, List.drop_left' (by omega), List.drop_replicate,
            List.length_cons, hw1]
          simp only [List.append_assoc, List.append_cancel_left_eq, List.replicate_append_replicate,
            List.replicate_inj]
          simp only [or_true, and_true]
          omega

theorem readNsecTypesBitmap_write (m : NSecTypeMask) : readNsecTypesBitmap (writeNsecTypesBitmap m.bytes.1) = .ok m := by
  have hm := m.bytes.2
  obtain ⟨h1, h2, h3⟩ := chunks32_props 256 m.bytes.1 m.bytes.1.length (by omega) (Nat.le_refl _)
  unfold readNsecTypesBitmap
  rw [writeNsecTypesBitmap_eq]
  obtain ⟨h, e⟩ := readBitmap_chunks (chunks32 m.bytes.1.length m.bytes.1) 0 [] _ NSecTypeMask.new.bytes h2 (by omega) rfl
    (by rw [h1]; rfl) (Nat.le_refl _)
  rw [e]
  simp only [Res.map, List.nil_append, h3]

theorem writeChunks_windows (cs : List Bytes) : ∀ (k : Nat), (∀ c ∈ cs, c.length = 32) → k + cs.length ≤ 256 →
    ∃ ws, writeChunks k cs = windows ws ∧ CanonicalWindows ws ∧ (∀ w ∈ ws, k ≤ w.1) := by
  induction cs with
  | nil => intro k _ _; exact ⟨[], rfl, ⟨by simp, by simp, by simp, by simp⟩, by simp⟩
  | cons c cs ih =>
    intro k hcs hk
    simp only [List.length_cons] at hk
    obtain ⟨ws, h1, h2, h3⟩ := ih (k + 1) (fun x hx => hcs x (by simp [hx])) (by omega)
    rcases writeWindow_eq (hcs c (by simp)) k with ⟨_, hw⟩ | ⟨w, _, hw2, hw3, hw4, hw, _, _⟩
    · exact ⟨ws, by rw [writeChunks_cons, hw, h1]; rfl, h2, fun w hw => by have := h3 w hw; omega⟩
    · refine ⟨(k, w) :: ws, by rw [writeChunks_cons, hw, h1]; simp [windows], ⟨?_, ?_, ?_, ?_⟩, ?_⟩
      · rw [List.pairwise_cons]; exact ⟨fun a ha => by have := h3 a ha; simp; omega, h2.increasing⟩
      · intro a ha
        rcases List.mem_cons.mp ha with rfl | ha
        · show k < 256; omega
        · exact h2.small a ha
      · intro a ha
        rcases List.mem_cons.mp ha with rfl | ha
        · exact ⟨hw2, hw3⟩
        · exact h2.length a ha
      · intro a ha
        rcases List.mem_cons.mp ha with rfl | ha
        · exact hw4
        · exact h2.lastNonzero a ha
      · intro a ha
        rcases List.mem_cons.mp ha with rfl | ha
        · exact Nat.le_refl _
        · have := h3 a ha; omega

theorem bitmapLen_foldl (cs : List Bytes) : ∀ (k : Nat) (tot : UInt16), (∀ c ∈ cs, c.length = 32) →
    cs.foldl (fun total flags =>
      if flags ≠ List.replicate 32 0 then total + (3 + UInt16.ofNat ((rposNonzero flags).getD 0)) else total) tot =
      tot + UInt16.ofNat (writeChunks k cs).length := by
  induction cs with
  | nil => intro k tot _; simp
  | cons c cs ih =>
    intro k tot hcs
    rw [List.foldl_cons, ih (k + 1) _ (fun x hx => hcs x (by simp [hx])), writeChunks_cons, List.length_append]
    rcases writeWindow_eq (hcs c (by simp)) k with ⟨h0, hw⟩ | ⟨w, _, _, _, _, hw, hp, hne⟩
    · rw [hw, if_neg (by simpa using h0)]; simp
    · rw [hw, if_pos hne]
      simp only [List.length_cons, ← hp]
      rw [UInt16.ofNat_add, UInt16.ofNat_add, UInt16.ofNat_add, UInt16.ofNat_add]
      simp only [UInt16.add_assoc]
      congr 1
      simp only [← UInt16.add_assoc]
      congr 1
      rw [show (UInt16.ofNat 1) = 1 from rfl, UInt16.add_comm 3]
      simp only [UInt16.add_assoc]; rfl

theorem nsecTypesBitmapLen_eq (m : NSecTypeMask) :
    nsecTypesBitmapLen m.bytes.1 = UInt16.ofNat (writeNsecTypesBitmap m.bytes.1).length := by
  have hm := m.bytes.2
  obtain ⟨h1, h2, h3⟩ := chunks32_props 256 m.bytes.1 m.bytes.1.length (by omega) (Nat.le_refl _)
  unfold nsecTypesBitmapLen
  rw [bitmapLen_foldl _ 0 0 h2, writeNsecTypesBitmap_eq]
  simp

theorem writeWindow_length_le {c : Bytes} (hc : c.length = 32) (k : Nat) : (writeWindow k c).length ≤ 34 := by
  rcases writeWindow_eq hc k with ⟨_, hw⟩ | ⟨w, _, _, h3, _, hw, _, _⟩
  · simp [hw]
  · rw [hw]; simp; omega

theorem writeNsecTypesBitmap_length_le (m : NSecTypeMask) : (writeNsecTypesBitmap m.bytes.1).length ≤ 8704 := by
  have hm := m.bytes.2
  obtain ⟨h1, h2, h3⟩ := chunks32_props 256 m.bytes.1 m.bytes.1.length (by omega) (Nat.le_refl _)
  have : ∀ (cs : List Bytes) (k : Nat), (∀ c ∈ cs, c.length = 32) → (writeChunks k cs).length ≤ 34 * cs.length := by
    intro cs
    induction cs with
    | nil => simp
    | cons c cs ih =>
      intro k h
      have a := writeWindow_length_le (h c (by simp)) k
      have b := ih (k + 1) (fun x hx => h x (by simp [hx]))
      simp; omega
  have := this _ 0 h2
  rw [writeNsecTypesBitmap_eq]; omega

/-! ### When reading panics -/

theorem readBitmapLoop_panic (fuel : Nat) : ∀ (inp : Bytes) (res : FixedBytes 8192), inp.length ≤ fuel →
    (readBitmapLoop fuel inp res = .panic ↔ BitmapOverrun inp) := by
  induction fuel with
  | zero =>
    intro inp res h
    have : inp = [] := by cases inp <;> simp_all
    subst this
    simp only [readBitmapLoop, reduceCtorEq, false_iff]
    intro h; cases h
  | succ fuel ih =>
    intro inp res h
    match inp with
    | [] => simp only [readBitmapLoop, reduceCtorEq, false_iff]; intro h; cases h
    | [_] => simp only [readBitmapLoop, reduceCtorEq, false_iff]; intro h; cases h
    | block :: len :: rest =>
      simp only [readBitmapLoop]
      split
      · rename_i hlt
        simp only [reduceCtorEq, false_iff]
        intro h; cases h with
        | here _ _ _ h1 _ => omega
        | later _ _ w r h1 _ _ => simp [h1] at hlt; omega
      · rename_i hge
        have htl : (rest.take len.toNat).length = len.toNat := by simp; omega
        simp only [htl]
        split
        · rename_i hle
          rw [ih _ _ (by simp at h ⊢; omega)]
          constructor
          · intro ho
            have := BitmapOverrun.later block len (rest.take len.toNat) (rest.drop len.toNat) htl hle ho
            rwa [List.take_append_drop] at this
          · intro ho
            cases ho with
            | here _ _ _ h1 h2 => omega
            | later _ _ w r h1 h2 h3 => rw [← h1, List.drop_left]; exact h3
        · rename_i hgt
          simp only [true_iff]
          exact BitmapOverrun.here block len rest (by omega) (by omega)

theorem readNsecTypesBitmap_panic (inp : Bytes) : readNsecTypesBitmap inp = .panic ↔ BitmapOverrun inp := by
  unfold readNsecTypesBitmap
  rw [← readBitmapLoop_panic inp.length inp NSecTypeMask.new.bytes (Nat.le_refl _)]
  cases readBitmapLoop inp.length inp NSecTypeMask.new.bytes <;> simp

end Dnssec
