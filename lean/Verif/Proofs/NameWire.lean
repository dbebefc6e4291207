import Verif.Proofs.Bytes
import Verif.Proofs.Labels
import Verif.Spec.Wire

/-! # Reading names -/

namespace Dnssec

open Spec

theorem utf8Decode_ascii {s : Bytes} (h : ∀ c ∈ s, c.toNat < 128) : utf8Decode s = some (s.map UInt8.toNat) := by
  induction s with
  | nil => simp [utf8Decode]
  | cons b bs ih =>
    have hb := h b (by simp)
    have := ih (fun c hc => h c (by simp [hc]))
    have hlt : b < 128 := UInt8.lt_iff_toNat_lt.mpr hb
    unfold utf8Decode
    simp [hlt, this]

theorem utf8Valid_ascii {s : Bytes} (h : ∀ c ∈ s, c.toNat < 128) : utf8Valid s = true := by
  simp [utf8Valid, utf8Decode_ascii h]

theorem pointer_offset (len : Nat) (lo : UInt8) (h1 : 192 ≤ len) (h2 : len < 256) :
    ((len &&& 0x3f) <<< 8) ||| lo.toNat = (len - 192) * 256 + lo.toNat := by
  have e : len &&& 0x3f = len - 192 := by
    have : len &&& (2 ^ 6 - 1) = len % 2 ^ 6 := Nat.and_two_pow_sub_one_eq_mod len 6
    have h3 : len &&& 0x3f = len % 64 := this
    rw [h3]; omega
  rw [e, Nat.shiftLeft_eq]
  have := Nat.two_pow_add_eq_or_of_lt (i := 8) (b := lo.toNat) lo.toNat_lt (len - 192)
  rw [Nat.mul_comm] at this
  exact this.symm

theorem orRoot_append_dot (a b : Bytes) : orRoot (a ++ 46 :: b) = a ++ 46 :: b := by
  simp [orRoot]

/-- One unfolding of the loop. -/
theorem readLabelsLoop_cons (msg : Bytes) (jump : Option (Nat → Bytes → Res Unit Bytes)) (fuel : Nat) (lenb : UInt8)
    (inp name : Bytes) :
    readLabelsLoop msg jump (fuel + 1) (lenb :: inp) name =
      if lenb.toNat = 0 then .ok (if name.isEmpty then [dot] else name, inp)
      else
        match jump with
        | some rec =>
          if 0xc0 ≤ lenb.toNat then
            match inp with
            | [] => .err ()
            | lo :: inp =>
              if ((lenb.toNat &&& 0x3f) <<< 8) ||| lo.toNat ≥ msg.length then .err ()
              else (rec (((lenb.toNat &&& 0x3f) <<< 8) ||| lo.toNat) name).map (fun name => (name, inp))
          else if inp.length ≤ lenb.toNat then .err ()
          else if utf8Valid (inp.take lenb.toNat) then
            if (name ++ inp.take lenb.toNat ++ [dot]).length > 255 then .err ()
            else readLabelsLoop msg jump fuel (inp.drop lenb.toNat) (name ++ inp.take lenb.toNat ++ [dot])
          else .err ()
        | none =>
          if inp.length ≤ lenb.toNat then .err ()
          else if utf8Valid (inp.take lenb.toNat) then
            if (name ++ inp.take lenb.toNat ++ [dot]).length > 255 then .err ()
            else readLabelsLoop msg jump fuel (inp.drop lenb.toNat) (name ++ inp.take lenb.toNat ++ [dot])
          else .err () := by
  cases jump <;> rfl

/-- What the recursive call may be assumed to do. -/
def JumpSound (msg : Bytes) (k : Nat) (jump : Option (Nat → Bytes → Res Unit Bytes)) : Prop :=
  match jump with
  | none => k = 0
  | some J => ∃ k', k = k' + 1 ∧ ∀ offs acc name, J offs acc = .ok name →
      ∃ nm r, Decodes msg k' (msg.drop offs) nm r ∧ name = orRoot (acc ++ nm)

theorem readLabelsLoop_sound (msg : Bytes) (k : Nat) (jump : Option (Nat → Bytes → Res Unit Bytes))
    (hJ : JumpSound msg k jump) (fuel : Nat) (inp acc name rest : Bytes)
    (h : readLabelsLoop msg jump fuel inp acc = .ok (name, rest)) :
    ∃ nm, Decodes msg k inp nm rest ∧ name = orRoot (acc ++ nm) := by
  induction fuel generalizing inp acc with
  | zero => simp [readLabelsLoop] at h
  | succ fuel ih =>
    cases inp with
    | nil => simp [readLabelsLoop] at h
    | cons lenb inp =>
      rw [readLabelsLoop_cons] at h
      have hlt := lenb.toNat_lt
      split at h
      · rename_i h0
        simp only [Res.ok.injEq, Prod.mk.injEq] at h
        obtain ⟨h1, rfl⟩ := h
        have : lenb = 0 := by rw [← UInt8.toNat_inj]; exact h0
        subst this
        refine ⟨[], Decodes.stop k inp, ?_⟩
        rw [← h1]; simp [orRoot, List.isEmpty_iff]
      · rename_i h0
        -- the plain label case, shared by both branches
        have plain : (lenb.toNat < 192 ∨ k = 0) →
            (if inp.length ≤ lenb.toNat then Res.err ()
              else if utf8Valid (inp.take lenb.toNat) then
                if (acc ++ inp.take lenb.toNat ++ [dot]).length > 255 then .err ()
                else readLabelsLoop msg jump fuel (inp.drop lenb.toNat) (acc ++ inp.take lenb.toNat ++ [dot])
              else .err ()) = .ok (name, rest) →
            ∃ nm, Decodes msg k (lenb :: inp) nm rest ∧ name = orRoot (acc ++ nm) := by
          intro hk h
          split at h
          · simp at h
          split at h
          rotate_left
          · simp at h
          split at h
          · simp at h
          rename_i hlen _ _
          obtain ⟨nm, h1, h2⟩ := ih _ _ h
          have hl : (inp.take lenb.toNat).length = lenb.toNat := by simp; omega
          refine ⟨inp.take lenb.toNat ++ 46 :: nm, ?_, ?_⟩
          · have := Decodes.label (msg := msg) k lenb (inp.take lenb.toNat) (inp.drop lenb.toNat) nm rest
              (by intro e; rw [e] at hl; simp at hl; omega) hl.symm hk h1
            rwa [List.take_append_drop] at this
          · rw [h2]; congr 1; simp [List.append_assoc]
        split at h
        · rename_i J
          obtain ⟨k', rfl, hJ⟩ := hJ
          split at h
          · rename_i h192
            split at h
            · simp at h
            · rename_i lo inp'
              split at h
              · simp at h
              · rename_i hoff
                rw [pointer_offset _ _ h192 hlt] at h hoff
                cases hj : J ((lenb.toNat - 192) * 256 + lo.toNat) acc with
                | err e => rw [hj] at h; simp at h
                | panic => rw [hj] at h; simp at h
                | ok nm' =>
                  rw [hj] at h
                  simp only [Res.map, Res.ok.injEq, Prod.mk.injEq] at h
                  obtain ⟨rfl, rfl⟩ := h
                  obtain ⟨nm, r, h1, h2⟩ := hJ _ _ _ hj
                  exact ⟨nm, Decodes.pointer k' lenb lo nm inp' r h192 (by omega) h1, h2⟩
          · rename_i h192
            exact plain (Or.inl (by omega)) h
        · have hk : k = 0 := hJ
          exact plain (Or.inr hk) h

theorem readLabels_sound (msg : Bytes) : ∀ (k : Nat) (inp acc name rest : Bytes),
    readLabels msg k inp acc = .ok (name, rest) → ∃ nm, Decodes msg k inp nm rest ∧ name = orRoot (acc ++ nm) := by
  intro k
  induction k with
  | zero => intro inp acc name rest h; exact readLabelsLoop_sound msg 0 none rfl _ _ _ _ _ h
  | succ k ih =>
    intro inp acc name rest h
    rw [readLabels] at h
    refine readLabelsLoop_sound msg (k + 1) (some _) ?_ _ _ _ _ _ h
    refine ⟨k, rfl, ?_⟩
    intro offs acc name hj
    dsimp only at hj
    cases hr : readLabels msg k (msg.drop offs) acc with
    | ok v =>
      obtain ⟨a, b⟩ := v
      rw [hr] at hj
      simp only [Res.map, Res.ok.injEq] at hj
      subst hj
      obtain ⟨nm, h1, h2⟩ := ih _ _ _ _ hr
      exact ⟨nm, b, h1, h2⟩
    | err e => rw [hr] at hj; simp at hj
    | panic => rw [hr] at hj; simp at hj

theorem Decodes_nonempty {msg : Bytes} {k : Nat} {inp nm rest : Bytes} (h : Decodes msg k inp nm rest) : inp ≠ [] := by
  cases h <;> simp

/-- The jump function used at budget `k`. -/
def jumpAt (msg : Bytes) : Nat → Option (Nat → Bytes → Res Unit Bytes)
  | 0 => none
  | k + 1 => some fun offs name => (readLabels msg k (msg.drop offs) name).map Prod.fst

theorem readLabels_eq (msg : Bytes) (k : Nat) (inp acc : Bytes) :
    readLabels msg k inp acc = readLabelsLoop msg (jumpAt msg k) inp.length inp acc := by
  cases k <;> rfl

theorem readLabelsLoop_complete {msg : Bytes} {k : Nat} {inp nm rest : Bytes} (h : Decodes msg k inp nm rest) :
    ∀ (fuel : Nat) (acc : Bytes), inp.length ≤ fuel → (acc ++ nm).length ≤ 255 → (∀ c ∈ nm, c.toNat < 128) →
      readLabelsLoop msg (jumpAt msg k) fuel inp acc = .ok (orRoot (acc ++ nm), rest) := by
  induction h with
  | stop k rest =>
    intro fuel acc hf _ _
    cases fuel with
    | zero => simp at hf
    | succ fuel =>
      rw [readLabelsLoop_cons]
      simp [orRoot, List.isEmpty_iff]
  | label k len l inp text rest hne hlen hk hd ih =>
    intro fuel acc hf hacc hasc
    cases fuel with
    | zero => simp at hf
    | succ fuel =>
      have hpos : 0 < l.length := List.length_pos_iff.mpr hne
      have hinp : 0 < inp.length := List.length_pos_iff.mpr (Decodes_nonempty hd)
      have htake : (l ++ inp).take len.toNat = l := by rw [hlen]; simp
      have hdrop : (l ++ inp).drop len.toNat = inp := by rw [hlen]; simp
      have hutf : utf8Valid l = true := utf8Valid_ascii (fun c hc => hasc c (by simp [hc]))
      have hrec := ih fuel (acc ++ l ++ [46]) (by simp at hf; omega)
        (by simp only [List.length_append, List.length_cons, List.length_nil] at hacc ⊢; omega)
        (fun c hc => hasc c (by simp [hc]))
      have hlen255 : ¬ (acc ++ l ++ [dot]).length > 255 := by
        simp only [List.length_append, List.length_cons, List.length_nil] at hacc ⊢; omega
      have hll : ¬ (l ++ inp).length ≤ len.toNat := by simp; omega
      have hfin : acc ++ l ++ [46] ++ text = acc ++ (l ++ 46 :: text) := by simp
      rw [hfin] at hrec
      rw [readLabelsLoop_cons, if_neg (by omega), htake, hdrop]
      have body : (if (l ++ inp).length ≤ len.toNat then Res.err ()
              else if utf8Valid l then
                if (acc ++ l ++ [dot]).length > 255 then .err ()
                else readLabelsLoop msg (jumpAt msg k) fuel inp (acc ++ l ++ [dot])
              else .err ()) = .ok (orRoot (acc ++ (l ++ 46 :: text)), rest) := by
        rw [if_neg hll, if_pos hutf, if_neg hlen255]; exact hrec
      cases k with
      | zero => exact body
      | succ k =>
        simp only [jumpAt] at body ⊢
        rw [if_neg (by omega)]
        exact body
  | pointer k hi lo text rest rest' h192 hoff hd ih =>
    intro fuel acc hf hacc hasc
    cases fuel with
    | zero => simp at hf
    | succ fuel =>
      have hlt := hi.toNat_lt
      rw [readLabelsLoop_cons, if_neg (by omega)]
      simp only [jumpAt]
      rw [if_pos (show 192 ≤ hi.toNat from h192), pointer_offset _ _ h192 hlt, if_neg (by omega), readLabels_eq,
        ih _ acc (Nat.le_refl _) hacc hasc]
      rfl

theorem readLabels_complete {msg : Bytes} {k : Nat} {inp nm rest : Bytes} (h : Decodes msg k inp nm rest)
    (hl : nm.length ≤ 255) (ha : ∀ c ∈ nm, c.toNat < 128) : readLabels msg k inp [] = .ok (orRoot nm, rest) := by
  rw [readLabels_eq]
  exact readLabelsLoop_complete h _ [] (Nat.le_refl _) (by simpa using hl) ha

theorem readName_iff (msg inp : Bytes) (n : Name) (rest : Bytes) :
    readName msg inp = .ok (n, rest) ↔
      ∃ t, Decodes msg 255 inp t rest ∧ NameText (orRoot t) ∧ n.bytes = lower (orRoot t) := by
  unfold readName
  constructor
  · intro h
    cases hr : readLabels msg 255 inp [] with
    | err e => rw [hr] at h; simp at h
    | panic => rw [hr] at h; simp at h
    | ok v =>
      obtain ⟨name, r⟩ := v
      rw [hr] at h
      simp only [Res.bind] at h
      split at h
      · rename_i m hm
        simp only [Res.ok.injEq, Prod.mk.injEq] at h
        obtain ⟨rfl, rfl⟩ := h
        obtain ⟨nm, h1, h2⟩ := readLabels_sound _ _ _ _ _ _ hr
        rw [List.nil_append] at h2
        rw [tryFrom_iff, h2] at hm
        exact ⟨nm, h1, hm.1, hm.2⟩
      · simp at h
  · rintro ⟨t, h1, h2, h3⟩
    have hsub : ∀ c ∈ t, c ∈ orRoot t := by
      intro c hc; unfold orRoot; split
      · rename_i e; subst e; simp at hc
      · exact hc
    have hlen : t.length ≤ 255 := by
      have := h2.short
      unfold orRoot at this
      split at this
      · rename_i e; subst e; simp
      · exact this
    have hc := readLabels_complete h1 hlen (fun c hc => by have := h2.printable c (hsub c hc); omega)
    rw [hc]
    simp only [Res.bind]
    have : Name.tryFrom (orRoot t) = some n := by rw [tryFrom_iff]; exact ⟨h2, h3⟩
    rw [this]

theorem Decodes_wire (msg : Bytes) (k : Nat) (ls : List Bytes) (hl : ∀ l ∈ ls, Label l) (rest : Bytes) :
    Decodes msg k (wire ls ++ rest) ((ls.map (fun l => l ++ [46])).flatten) rest := by
  induction ls with
  | nil => exact Decodes.stop k rest
  | cons l ls ih =>
    have hll := hl l (by simp)
    have h1 := ih (fun x hx => hl x (by simp [hx]))
    have hs := hll.short
    have := Decodes.label (msg := msg) k (UInt8.ofNat l.length) l _ _ rest hll.nonempty
      (by rw [UInt8.toNat_ofNat']; omega) (Or.inl (by rw [UInt8.toNat_ofNat']; omega)) h1
    simpa [wire, List.append_assoc] using this

theorem orRoot_flatten (ls : List Bytes) : orRoot ((ls.map (fun l => l ++ [46])).flatten) = text ls := by
  cases ls with
  | nil => rfl
  | cons l ls => simp [orRoot, text]

/-- Reading back a written name, whatever message it is read in. -/
theorem readName_wire (msg : Bytes) {n : Name} {ls : List Bytes} (h : HasLabels n ls) (rest : Bytes) :
    readName msg (wire ls ++ rest) = .ok (n, rest) := by
  rw [readName_iff]
  refine ⟨_, Decodes_wire msg 255 ls h.labels rest, ?_, ?_⟩
  · rw [orRoot_flatten]
    exact text_nameText h.labels (by rw [← h.bytes]; exact h.short)
  · rw [orRoot_flatten, lower_text h.labels, h.bytes]

theorem readName_write (msg : Bytes) {n : Name} {ls : List Bytes} (h : HasLabels n ls) (rest : Bytes) :
    readName msg (writeName n.bytes ++ rest) = .ok (n, rest) := by
  rw [h.writeName]; exact readName_wire msg h rest

theorem readLabelsLoop_no_panic (msg : Bytes) (jump : Option (Nat → Bytes → Res Unit Bytes))
    (hJ : ∀ J, jump = some J → ∀ o a, J o a ≠ .panic) (fuel : Nat) (inp acc : Bytes) :
    readLabelsLoop msg jump fuel inp acc ≠ .panic := by
  induction fuel generalizing inp acc with
  | zero => simp [readLabelsLoop]
  | succ fuel ih =>
    cases inp with
    | nil => simp [readLabelsLoop]
    | cons lenb inp =>
      rw [readLabelsLoop_cons]
      split
      · simp
      split
      · rename_i J
        split
        · split
          · simp
          · split
            · simp
            · rename_i lo inp' hoff
              have := hJ J rfl ((lenb.toNat &&& 0x3f) <<< 8 ||| lo.toNat) acc
              cases h : J ((lenb.toNat &&& 0x3f) <<< 8 ||| lo.toNat) acc <;> simp_all
        · split
          · simp
          split
          · split
            · simp
            · exact ih _ _
          · simp
      · split
        · simp
        split
        · split
          · simp
          · exact ih _ _
        · simp

theorem readLabels_no_panic (msg : Bytes) (k : Nat) : ∀ inp acc, readLabels msg k inp acc ≠ .panic := by
  induction k with
  | zero => intro inp acc; exact readLabelsLoop_no_panic msg none (by simp) _ _ _
  | succ k ih =>
    intro inp acc
    refine readLabelsLoop_no_panic msg _ ?_ _ _ _
    intro J hJ o a
    simp only [Option.some.injEq] at hJ
    subst hJ
    have := ih (msg.drop o) a
    cases h : readLabels msg k (msg.drop o) a <;> simp_all

theorem readName_no_panic (msg inp : Bytes) : readName msg inp ≠ .panic := by
  unfold readName
  have := readLabels_no_panic msg 255 inp []
  cases h : readLabels msg 255 inp [] with
  | ok v => obtain ⟨a, b⟩ := v; simp only [Res.bind]; split <;> simp
  | err e => simp
  | panic => simp_all

/-- A successful read consumes at least one byte. -/
theorem Decodes_rest_lt {msg : Bytes} {k : Nat} {inp nm rest : Bytes} (h : Decodes msg k inp nm rest) :
    rest.length < inp.length := by
  induction h with
  | stop => simp
  | label k len l inp text rest _ _ _ _ ih => simp; omega
  | pointer k hi lo text rest rest' _ _ _ _ => simp; omega

theorem readName_obtainable {msg inp : Bytes} {n : Name} {rest : Bytes} (h : readName msg inp = .ok (n, rest)) :
    Obtainable n := by
  rw [readName_iff] at h
  obtain ⟨t, _, h2, h3⟩ := h
  exact obtainable_of (s := orRoot t) (by rw [tryFrom_iff]; exact ⟨h2, h3⟩)

theorem readName_reads {msg inp : Bytes} {n : Name} {rest : Bytes} :
    readName msg inp = .ok (n, rest) ↔ ReadsName msg inp n rest := by
  have : ∀ s : Bytes, lower s = s.map foldCase := fun s => List.map_congr_left (fun c _ => lowerByte_eq_foldCase c)
  simp only [readName_iff, this, ReadsName]

end Dnssec
