import Verif.Spec.Operators
import Verif.Proofs.Debug
import Verif.Proofs.Trust
import Verif.Proofs.Canonical
import Verif.Proofs.Permute

/-! # Only what was signed verifies -/

namespace Dnssec

open Spec

/-! ### Unambiguity of the signed bytes -/

/-- A sequence of pieces with their lengths, the last one empty. Others may be empty too. -/
inductive Pieces : Bytes → Prop
  | last : Pieces [0]
  | cons (l P : Bytes) : (∀ c ∈ l, c ≠ 0) → l.length < 256 → Pieces P → Pieces (UInt8.ofNat l.length :: (l ++ P))

theorem ofNat_len_zero {l : Bytes} (h : l.length < 256) (h0 : UInt8.ofNat l.length = 0) : l = [] := by
  have := congrArg UInt8.toNat h0
  simp at this
  exact List.length_eq_zero_iff.mp (by omega)

theorem ofNat_len_inj {a b : Nat} (ha : a < 256) (hb : b < 256) (h : UInt8.ofNat a = UInt8.ofNat b) : a = b := by
  have := congrArg UInt8.toNat h
  simp at this
  omega

theorem wire_cons' (l : Bytes) (ls : List Bytes) : wire (l :: ls) = UInt8.ofNat l.length :: (l ++ wire ls) := by
  simp [wire]

theorem wire_nil' : wire [] = [0] := rfl

/-- Labels as they may be in a message. -/
def WireLabels (ls : List Bytes) : Prop := ∀ l ∈ ls, l ≠ [] ∧ l.length ≤ 63

theorem Pieces.split {P : Bytes} (h : Pieces P) : ∀ {ls : List Bytes} {X Y : Bytes}, WireLabels ls → P ++ X = wire ls ++ Y →
    (P = wire ls ∧ X = Y) ∨ ∃ P2, Pieces P2 ∧ P2 ++ X = Y := by
  induction h with
  | last =>
    intro ls X Y hl e
    cases ls with
    | nil =>
      left
      simp [wire_nil'] at e ⊢
      exact e
    | cons l ls =>
      rw [wire_cons'] at e
      simp only [List.cons_append, List.nil_append, List.cons.injEq] at e
      obtain ⟨h1, h2⟩ := hl l (by simp)
      exact absurd (ofNat_len_zero (by omega) e.1.symm) h1
  | cons l P hc hl' hP ih =>
    intro ls X Y hl e
    cases ls with
    | nil =>
      rw [wire_nil'] at e
      simp only [List.cons_append, List.nil_append, List.cons.injEq] at e
      obtain rfl := ofNat_len_zero hl' e.1
      exact Or.inr ⟨P, hP, by simpa using e.2⟩
    | cons l' ls =>
      rw [wire_cons'] at e
      simp only [List.cons_append, List.cons.injEq, List.append_assoc] at e
      obtain ⟨h1, h2⟩ := hl l' (by simp)
      have hlen := ofNat_len_inj hl' (by omega) e.1
      obtain ⟨rfl, e2⟩ := List.append_inj e.2 hlen
      rcases ih (fun x hx => hl x (by simp [hx])) e2 with ⟨rfl, rfl⟩ | h
      · exact Or.inl ⟨(wire_cons' _ _).symm, rfl⟩
      · exact Or.inr h

theorem Pieces.at_length {P X Y : Bytes} {t : UInt8} (h : Pieces P) (e : P ++ X = t :: 0 :: Y) : t = 0 := by
  cases h with
  | last =>
    simp only [List.cons_append, List.cons.injEq] at e
    exact e.1.symm
  | cons l P hc hl hP =>
    simp only [List.cons_append, List.cons.injEq] at e
    cases l with
    | nil => simp at e; exact e.1.symm
    | cons c l =>
      simp only [List.cons_append, List.cons.injEq] at e
      exact absurd e.2.1 (hc c (by simp))

theorem Pieces.at_type {P X Y : Bytes} {t : UInt8} (h : Pieces P) (ht : t ≠ 0) (e : P ++ X = 0 :: t :: 0 :: Y) : X = t :: 0 :: Y := by
  cases h with
  | last => simpa using e
  | cons l P hc hl hP =>
    simp only [List.cons_append, List.cons.injEq] at e
    obtain rfl := ofNat_len_zero hl e.1
    exact absurd (hP.at_length (by simpa using e.2)) ht

theorem owner_unique {P X Y : Bytes} {o : List Bytes} {t : UInt8} (h : Pieces P) (ho : WireLabels o) (ht : t ≠ 0)
    (e : P ++ 0 :: t :: 0 :: X = wire o ++ 0 :: t :: 0 :: Y) : P = wire o ∧ X = Y := by
  rcases h.split ho e with ⟨h1, h2⟩ | ⟨P2, hP, h2⟩
  · exact ⟨h1, by simpa using h2⟩
  · have := hP.at_type ht h2
    simp only [List.cons.injEq] at this
    exact absurd this.1.symm ht

theorem signer_unique {K P X Y : Bytes} {k o : List Bytes} {t : UInt8} (hK : Pieces K) (h : Pieces P) (hk : WireLabels k)
    (ho : WireLabels o) (ht : t ≠ 0) (e : K ++ (P ++ 0 :: t :: 0 :: X) = wire k ++ (wire o ++ 0 :: t :: 0 :: Y)) :
    K = wire k ∧ P ++ 0 :: t :: 0 :: X = wire o ++ 0 :: t :: 0 :: Y := by
  rcases hK.split hk e with h1 | ⟨K2, hK2, e2⟩
  · exact h1
  · exfalso
    rcases hK2.split ho e2 with ⟨_, e3⟩ | ⟨K3, hK3, e3⟩
    · have := h.at_type ht e3
      simp only [List.cons.injEq] at this
      exact ht this.1.symm
    · have := hK3.at_type ht e3
      exact ht (h.at_length this)

/-! ### Names -/

theorem pieces_flatten : ∀ {ls : List Bytes}, (∀ l ∈ ls, (∀ c ∈ l, c ≠ 0) ∧ l.length < 256) →
    Pieces ((ls ++ [[]]).map (fun l : Bytes => UInt8.ofNat l.length :: l)).flatten
  | [], _ => by simpa using Pieces.last
  | l :: ls, h => by
    obtain ⟨h1, h2⟩ := h l (by simp)
    have := Pieces.cons l _ h1 h2 (pieces_flatten (fun x hx => h x (List.mem_cons_of_mem l hx)))
    simpa using this

theorem enc_inj : ∀ {ps qs : List Bytes}, (∀ l ∈ ps, l.length < 256) → (∀ l ∈ qs, l.length < 256) →
    (ps.map (fun l => UInt8.ofNat l.length :: l)).flatten = (qs.map (fun l => UInt8.ofNat l.length :: l)).flatten → ps = qs
  | [], [], _, _, _ => rfl
  | [], q :: qs, _, _, e => by simp at e
  | p :: ps, [], _, _, e => by simp at e
  | p :: ps, q :: qs, hp, hq, e => by
    simp only [List.map_cons, List.flatten_cons, List.cons_append, List.cons.injEq] at e
    obtain ⟨rfl, e2⟩ := List.append_inj e.2 (ofNat_len_inj (hp p (by simp)) (hq q (by simp)) e.1)
    rw [enc_inj (fun x hx => hp x (by simp [hx])) (fun x hx => hq x (by simp [hx])) e2]

theorem splitDot_mem {s : Bytes} {l : Bytes} (hl : l ∈ splitDot s) : ∀ c ∈ l, c ∈ s := by
  obtain ⟨a, as, h1, h2⟩ := splitDot_join s
  rw [h1] at hl
  intro c hc
  rw [h2]
  rcases List.mem_cons.mp hl with rfl | hl
  · simp [hc]
  · rw [List.mem_append]; right
    rw [List.mem_flatten]
    exact ⟨dot :: l, List.mem_map.mpr ⟨l, hl, rfl⟩, by simp [hc]⟩

theorem splitDot_inj {s t : Bytes} (h : splitDot s = splitDot t) : s = t := by
  obtain ⟨a, as, h1, h2⟩ := splitDot_join s
  obtain ⟨b, bs, h3, h4⟩ := splitDot_join t
  rw [h1, h3] at h
  obtain ⟨rfl, rfl⟩ := List.cons.inj h
  rw [h2, h4]

theorem splitDot_append_dot (s : Bytes) : splitDot (s ++ [dot]) = splitDot s ++ [[]] := by
  rw [← cutAtDots_eq, ← cutAtDots_eq]
  exact cutAtDots_append s []

/-- A text that is empty or ends in a dot, with pieces of at most 63 bytes, in lower case and without zero bytes. -/
structure NameLike (s : Bytes) : Prop where
  ends : s = [] ∨ ∃ t, s = t ++ [46]
  short : ∀ l ∈ splitDot s, l.length ≤ 63
  nonzero : ∀ c ∈ s, c ≠ 0
  lower : lower s = s

theorem NameLike.pieces {s : Bytes} (h : NameLike s) : Pieces (writeName s) := by
  unfold writeName
  simp only [h.lower]
  split
  · exact Pieces.last
  · rcases h.ends with rfl | ⟨t, rfl⟩
    · exact Pieces.last
    · have e := splitDot_append_dot t
      have hs := h.short
      have hn := h.nonzero
      rw [show (46 : UInt8) = dot from rfl, e] at *
      refine pieces_flatten ?_
      intro l hl
      refine ⟨fun c hc => hn c ?_, by have := hs l (by simp [hl]); omega⟩
      rw [List.mem_append]; left
      exact splitDot_mem hl c hc

theorem NameLike.eq_text {s : Bytes} {o : List Bytes} (h : NameLike s) (ho : WireLabels o) (e : writeName s = wire o) :
    s = text o ∨ (s = [] ∧ o = []) := by
  unfold writeName at e
  simp only [h.lower] at e
  split at e
  · rename_i hs
    subst hs
    cases o with
    | nil => exact Or.inl rfl
    | cons l ls =>
      rw [wire_cons'] at e
      simp only [List.cons.injEq] at e
      obtain ⟨h1, h2⟩ := ho l (by simp)
      exact absurd (ofNat_len_zero (by omega) e.1.symm) h1
  · have e2 : wire o = ((o ++ [[]]).map (fun l : Bytes => UInt8.ofNat l.length :: l)).flatten := by simp [wire]
    rw [e2] at e
    have e3 := enc_inj (fun l hl => by have := h.short l hl; omega) (fun l hl => by
      rcases List.mem_append.mp hl with hl | hl
      · have := ho l hl; omega
      · simp at hl; subst hl; simp) e
    have hnd : ∀ l ∈ o, dot ∉ l := by
      intro l hl
      exact splitDot_pieces_nodot s l (by rw [e3]; simp [hl])
    by_cases h0 : o = []
    · subst h0
      right
      refine ⟨?_, rfl⟩
      exact splitDot_inj (t := []) e3
    · left
      apply splitDot_inj
      rw [e3, text, if_neg h0]
      exact (splitDot_flatten hnd).symm

theorem Spec.Obtainable.nameLike {n : Name} (h : Obtainable n) : NameLike n.bytes := by
  obtain ⟨h1, h2⟩ := h.nameText
  refine ⟨Or.inr h1.endsInDot, ?_, ?_, h2⟩
  · exact (splitDot_labels_iff _).mpr h1.labels
  · intro c hc h0
    have := h1.printable c hc
    rw [h0] at this
    simp at this

theorem NameLike.suffix {pre b : Bytes} (h : NameLike (pre ++ 46 :: b)) : NameLike b := by
  refine ⟨?_, ?_, fun c hc => h.nonzero c (by simp [hc]), ?_⟩
  · rcases h.ends with e | ⟨t, e⟩
    · simp at e
    · by_cases hb : b = []
      · exact Or.inl hb
      · right
        obtain ⟨i, x, rfl⟩ : ∃ i x, b = i ++ [x] := ⟨b.dropLast, b.getLast hb, (List.dropLast_concat_getLast hb).symm⟩
        refine ⟨i, ?_⟩
        have : (pre ++ 46 :: i) ++ [x] = t ++ [46] := by simpa using e
        have := (List.append_inj' this rfl).2
        rw [this]
  · intro l hl
    apply h.short l
    rw [← cutAtDots_eq, cutAtDots_append, List.mem_append]
    right
    rw [cutAtDots_eq]; exact hl
  · have := h.lower
    unfold Dnssec.lower at this ⊢
    rw [List.map_append, List.map_cons] at this
    have := (List.append_inj' this (by simp)).2
    exact (List.cons.inj this).2

theorem hasLabels_of_wire {n : Name} {o : List Bytes} (h : Obtainable n) (ho : WireLabels o) (e : writeName n.bytes = wire o) :
    HasLabels n o := by
  obtain ⟨h1, h2⟩ := h.nameText
  have hb : n.bytes = text o := by
    rcases h.nameLike.eq_text ho e with h3 | ⟨h3, _⟩
    · exact h3
    · obtain ⟨t, ht⟩ := h1.endsInDot
      rw [h3] at ht; simp at ht
  refine ⟨?_, hb, h1.short⟩
  by_cases h0 : o = []
  · subst h0; simp
  · intro l hl
    obtain ⟨l1, l2⟩ := ho l hl
    have hsub : ∀ c ∈ l, c ∈ n.bytes := by
      intro c hc
      rw [hb, text, if_neg h0, List.mem_flatten]
      exact ⟨l ++ [46], List.mem_map.mpr ⟨l, hl, rfl⟩, by simp [hc]⟩
    refine ⟨l1, l2, ?_⟩
    intro c hc
    obtain ⟨c1, c2, c3⟩ := h1.printable c (hsub c hc)
    refine ⟨c1, c2, c3, ?_, lower_eq_self_notUpper h2 c (hsub c hc)⟩
    intro h46
    -- a dot inside a label: the wire form would have been cut there
    have hs : splitDot n.bytes = o ++ [[]] := by
      have e' := e
      unfold writeName at e'
      simp only [h2] at e'
      split at e'
      · rename_i hr
        exfalso
        have hn : n.bytes = [46] := hr
        cases o with
        | nil => exact h0 rfl
        | cons x xs =>
          rw [wire_cons'] at e'
          simp only [List.cons.injEq] at e'
          obtain ⟨y1, y2⟩ := ho x (by simp)
          exact y1 (ofNat_len_zero (by omega) e'.1.symm)
      · have e2 : wire o = ((o ++ [[]]).map (fun l : Bytes => UInt8.ofNat l.length :: l)).flatten := by simp [wire]
        rw [e2] at e'
        exact enc_inj (fun l hl => by have := h.nameLike.short l hl; omega) (fun l hl => by
          rcases List.mem_append.mp hl with hl | hl
          · have := (ho l hl).2; omega
          · simp at hl; subst hl; simp) e'
    have hd : dot ∉ l := splitDot_pieces_nodot n.bytes l (by rw [hs]; simp [hl])
    exact hd (by rw [show dot = c from (UInt8.toNat_inj.mp (by rw [h46]; rfl))]; exact hc)

/-! ### Signed records -/

theorem signedOwner_pieces {sig : RRSig} {r : RR} {b : Bytes} (hn : Obtainable r.name) (h : signedOwner sig r = some b) : Pieces b := by
  unfold signedOwner at h
  simp only at h
  split at h
  · split at h
    · simp at h
    · rw [Option.map_eq_some_iff] at h
      obtain ⟨x, hx, rfl⟩ := h
      have : Pieces (writeName x) := by
        rcases trailing_suffix hx (by omega) with ⟨pre, e⟩ | ⟨rfl, _⟩
        · exact (NameLike.suffix (e ▸ hn.nameLike)).pieces
        · exact Pieces.last
      exact Pieces.cons [42] _ (by decide) (by decide) this
  · rw [Option.some.injEq] at h
    subst h
    exact hn.nameLike.pieces

theorem signedOwner_owned {sig : RRSig} {r : RR} {o : List Bytes} (hn : Obtainable r.name) (ho : WireLabels o)
    (h : signedOwner sig r = some (wire o)) : OwnedBy r.name o := by
  unfold signedOwner at h
  simp only at h
  split at h
  · split at h
    · simp at h
    · rename_i h1 h2
      rw [Option.map_eq_some_iff] at h
      obtain ⟨x, hx, e⟩ := h
      right
      cases o with
      | nil => rw [wire_nil'] at e; simp at e
      | cons l ls =>
        rw [wire_cons'] at e
        obtain ⟨l1, l2⟩ := ho l (by simp)
        simp only [List.cons_append, List.nil_append, List.cons.injEq] at e
        have hlen : l.length = 1 := (ofNat_len_inj (a := 1) (by omega) (by omega) e.1).symm
        obtain ⟨c, rfl⟩ := List.length_eq_one_iff.mp hlen
        simp only [List.cons_append, List.nil_append, List.cons.injEq] at e
        obtain ⟨_, rfl, e⟩ := e
        refine ⟨ls, rfl, ?_, ?_⟩
        · intro hr
          rw [hr] at h1 h2
          have : (⟨[46]⟩ : Name).labels.toNat = 0 := by decide
          omega
        · rcases trailing_suffix hx (by omega) with ⟨pre, e2⟩ | ⟨rfl, _⟩
          · rcases (NameLike.suffix (e2 ▸ hn.nameLike)).eq_text (fun y hy => ho y (by simp [hy])) e with e3 | ⟨_, e3⟩
            · exact Or.inr ⟨pre, e3 ▸ e2⟩
            · exact Or.inl e3
          · left
            cases ls with
            | nil => rfl
            | cons y ys =>
              rw [wire_cons'] at e
              have e0 : writeName [46] = [0] := by decide
              rw [e0] at e
              simp only [List.cons.injEq] at e
              obtain ⟨y1, y2⟩ := ho y (by simp)
              exact absurd (ofNat_len_zero (by omega) e.1.symm) y1
  · rw [Option.some.injEq] at h
    exact Or.inl (hasLabels_of_wire hn ho h)

theorem be16_type (r : RR) : ∃ t : UInt8, t ≠ 0 ∧ be16 r.ty = [0, t] := by
  cases r
  · exact ⟨1, by decide, show be16 1 = _ by decide⟩
  · exact ⟨28, by decide, show be16 28 = _ by decide⟩
  · exact ⟨2, by decide, show be16 2 = _ by decide⟩
  · exact ⟨16, by decide, show be16 16 = _ by decide⟩
  · exact ⟨52, by decide, show be16 52 = _ by decide⟩
  · exact ⟨5, by decide, show be16 5 = _ by decide⟩
  · exact ⟨39, by decide, show be16 39 = _ by decide⟩
  · exact ⟨48, by decide, show be16 48 = _ by decide⟩
  · exact ⟨43, by decide, show be16 43 = _ by decide⟩
  · exact ⟨46, by decide, show be16 46 = _ by decide⟩
  · exact ⟨47, by decide, show be16 47 = _ by decide⟩
  · exact ⟨50, by decide, show be16 50 = _ by decide⟩

/-- One record of a statement. -/
def recordBytes (o : List Bytes) (ty : UInt16) (ttl : UInt32) (d : Bytes) : Bytes :=
  wire o ++ be16 ty ++ be16 1 ++ be32 ttl ++ be16 (UInt16.ofNat d.length) ++ d

theorem be16_one : be16 1 = [0, 1] := rfl

theorem signedRecords_match {sig : RRSig} {o : List Bytes} (ho : WireLabels o) : ∀ {rs : List RR} {ds : List Bytes} {b : Bytes},
    signedRecords sig rs = some b → (∀ r ∈ rs, r.ty = sig.ty ∧ Obtainable r.name ∧ (rdata r).length ≤ 65535) →
    (∀ d ∈ ds, d.length ≤ 65535) → b = (ds.map (recordBytes o sig.ty sig.origTtl)).flatten →
    rs.map rdata = ds ∧ ∀ r ∈ rs, signedOwner sig r = some (wire o) := by
  intro rs
  induction rs with
  | nil =>
    intro ds b h _ _ e
    rw [signedRecords, Option.some.injEq] at h
    subst h
    cases ds with
    | nil => simp
    | cons d ds =>
      exfalso
      have := congrArg List.length e
      simp [recordBytes, wire] at this
  | cons r rs ih =>
    intro ds b h hr hd e
    rw [signedRecords] at h
    cases hso : signedOwner sig r with
    | none => rw [hso] at h; simp at h
    | some P =>
      rw [hso] at h
      simp only [Option.map_eq_some_iff] at h
      obtain ⟨rest, hrest, rfl⟩ := h
      obtain ⟨hty, hn, hsz⟩ := hr r (by simp)
      have hP := signedOwner_pieces hn hso
      obtain ⟨t, ht, et⟩ := be16_type r
      cases ds with
      | nil =>
        exfalso
        have := congrArg List.length e
        simp [et] at this
      | cons d ds =>
        have hd0 := hd d (by simp)
        rw [List.map_cons, List.flatten_cons, recordBytes, ← hty, et, be16_one] at e
        simp only [List.append_assoc, List.cons_append, List.nil_append] at e
        obtain ⟨rfl, e2⟩ := owner_unique hP ho ht e
        rw [List.cons.injEq] at e2
        obtain ⟨_, e3⟩ := List.append_inj e2.2 rfl
        have hih := ih hrest (fun x hx => hr x (by simp [hx])) (fun x hx => hd x (by simp [hx])) (ds := ds)
        by_cases htxt : ∃ q, r = .txt q ∧ q.data = []
        · -- an empty TXT record is written with length 0 and one byte
          exfalso
          obtain ⟨q, rfl, hq⟩ := htxt
          have ew : (RR.txt q).writeData = [0, 0, 0] := by
            simp only [RR.writeData, Txt.writeData, hq]; rfl
          rw [ew] at e3
          obtain ⟨e4, e5⟩ := List.append_inj (s₁ := [0, 0]) e3 rfl
          have e6 := congrArg UInt16.toNat (be16_inj (x := 0) e4)
          simp at e6
          have hd1 : d = [] := List.length_eq_zero_iff.mp (by omega)
          subst hd1
          rw [List.nil_append] at e5
          cases ds with
          | nil => simp at e5
          | cons d ds =>
            rw [List.map_cons, List.flatten_cons, recordBytes] at e5
            cases o with
            | cons l ls =>
              rw [wire_cons'] at e5
              simp only [List.cons_append, List.cons.injEq] at e5
              obtain ⟨l1, l2⟩ := ho l (by simp)
              exact l1 (ofNat_len_zero (by omega) e5.1.symm)
            | nil =>
              rw [wire_nil'] at e5
              simp only [List.cons_append, List.nil_append, List.cons.injEq, true_and, List.append_assoc] at e5
              cases rs with
              | nil =>
                simp only [signedRecords, Option.some.injEq] at hrest
                subst hrest
                have := congrArg List.length e5
                simp at this
                omega
              | cons r2 rs =>
                rw [signedRecords] at hrest
                cases hso2 : signedOwner sig r2 with
                | none => rw [hso2] at hrest; simp at hrest
                | some P2 =>
                  rw [hso2] at hrest
                  simp only [Option.map_eq_some_iff] at hrest
                  obtain ⟨rest2, hrest2, rfl⟩ := hrest
                  obtain ⟨hty2, hn2, hsz2⟩ := hr r2 (by simp)
                  rw [hty2, ← hty, et, be16_one] at e5
                  simp only [List.cons_append, List.nil_append, List.append_assoc] at e5
                  have := (signedOwner_pieces hn2 hso2).at_type ht e5
                  simp only [List.cons.injEq] at this
                  exact ht this.1.symm
        · rw [writeData_eq r (fun q hq hq' => htxt ⟨q, hq, hq'⟩)] at e3
          rw [List.append_assoc] at e3
          obtain ⟨e4, e5⟩ := List.append_inj e3 (by simp)
          have e6 := congrArg UInt16.toNat (be16_inj e4)
          simp at e6
          obtain ⟨e7, e8⟩ := List.append_inj e5 (by omega)
          rw [← hty] at hih
          obtain ⟨i1, i2⟩ := hih e8
          refine ⟨by rw [List.map_cons, i1, e7], ?_⟩
          intro x hx
          rcases List.mem_cons.mp hx with rfl | hx
          · exact hso
          · exact i2 x hx

/-- What is signed determines the statement. -/
theorem statement_of_message {sig : RRSig} {records : List RR} {st : Statement} {msg : Bytes}
    (hm : signedData sig records = some msg) (e : st.message = msg) (hw : WireLabels (st.owner ++ st.signer))
    (hd : ∀ d ∈ st.rdatas, d.length ≤ 65535) (hne : records ≠ [])
    (hr : ∀ r ∈ records, r.ty = sig.ty ∧ Obtainable r.name ∧ (rdata r).length ≤ 65535) (hk : Obtainable sig.keyName) :
    st.ty = sig.ty ∧ st.origTtl = sig.origTtl ∧ st.expiration = sig.expiration ∧ st.inception = sig.inception ∧
    HasLabels sig.keyName st.signer ∧ (∀ d, d ∈ st.rdatas ↔ ∃ x ∈ records, rdata x = d) ∧
    ∀ r ∈ records, signedOwner sig r = some (wire st.owner) := by
  have hwo : WireLabels st.owner := fun l hl => hw l (by simp [hl])
  have hws : WireLabels st.signer := fun l hl => hw l (by simp [hl])
  unfold signedData at hm
  rw [Option.map_eq_some_iff] at hm
  obtain ⟨body, hb, rfl⟩ := hm
  rw [show sortBy RR.partialCmp records = sortRRs records from rfl] at hb
  have hp := sortRRs_perm records
  have hr' : ∀ r ∈ sortRRs records, r.ty = sig.ty ∧ Obtainable r.name ∧ (rdata r).length ≤ 65535 :=
    fun r h => hr r (hp.mem_iff.mp h)
  have hne' : sortRRs records ≠ [] := fun h0 => hne (by rw [h0] at hp; exact hp.symm.eq_nil)
  unfold Statement.message sigPrefix at e
  simp only [List.append_assoc, List.cons_append, List.nil_append] at e
  obtain ⟨e1, e⟩ := List.append_inj e (by simp)
  rw [List.cons.injEq, List.cons.injEq] at e
  obtain ⟨_, _, e⟩ := e
  obtain ⟨e3, e⟩ := List.append_inj e (by simp)
  obtain ⟨e4, e⟩ := List.append_inj e (by simp)
  obtain ⟨e5, e⟩ := List.append_inj e (by simp)
  obtain ⟨e6, e⟩ := List.append_inj e (by simp)
  have hty := be16_inj e1
  have httl := be32_inj e3
  have hK := hk.nameLike.pieces
  generalize hs : sortRRs records = sorted at *
  cases sorted with
  | nil => exact absurd rfl hne'
  | cons r rs =>
    have hb0 := hb
    rw [signedRecords] at hb0
    cases hso : signedOwner sig r with
    | none => rw [hso] at hb0; simp at hb0
    | some P =>
      rw [hso] at hb0
      simp only [Option.map_eq_some_iff] at hb0
      obtain ⟨rest, hrest, rfl⟩ := hb0
      obtain ⟨hrty, hn, _⟩ := hr' r (by simp)
      have hP := signedOwner_pieces hn hso
      obtain ⟨t, ht, et⟩ := be16_type r
      have hq : writeName sig.keyName.bytes = wire st.signer ∧ (P ++ be16 r.ty ++ be16 1 ++ be32 sig.origTtl ++ r.writeData ++ rest) =
          (st.rdatas.map (recordBytes st.owner sig.ty sig.origTtl)).flatten := by
        cases hds : st.rdatas with
        | nil =>
          exfalso
          rw [hds] at e
          simp only [List.map_nil, List.flatten_nil] at e
          rcases hK.split hws e.symm with ⟨_, h2⟩ | ⟨P2, _, h2⟩
          · have := congrArg List.length h2; simp [et] at this
          · have := congrArg List.length h2; simp [et] at this
        | cons d ds =>
          rw [hds] at e
          have e' := e.symm
          simp only [List.map_cons, List.flatten_cons, List.append_assoc, hty, ← hrty, et, be16_one, List.cons_append,
            List.nil_append] at e'
          obtain ⟨s1, s2⟩ := signer_unique hK hP hws hwo ht e'
          refine ⟨s1, ?_⟩
          rw [s1] at e
          have := (List.append_inj e rfl).2
          rw [← this]
          have hrb : recordBytes st.owner sig.ty sig.origTtl = fun d => wire st.owner ++ (be16 st.ty ++ (be16 1 ++
              (be32 st.origTtl ++ (be16 (UInt16.ofNat d.length) ++ d)))) := by
            funext d; simp only [recordBytes, hty, httl, List.append_assoc]
          rw [hrb]
      obtain ⟨q1, q2⟩ := hq
      obtain ⟨m1, m2⟩ := signedRecords_match hwo hb hr' hd q2
      refine ⟨hty, httl, be32_inj e4, be32_inj e5, hasLabels_of_wire hk hws q1, ?_, ?_⟩
      · intro d
        rw [← m1, List.mem_map]
        constructor
        · rintro ⟨x, hx, rfl⟩; exact ⟨x, hp.mem_iff.mp hx, rfl⟩
        · rintro ⟨x, hx, rfl⟩; exact ⟨x, hp.mem_iff.mpr hx, rfl⟩
      · intro x hx
        exact m2 x (hp.mem_iff.mpr hx)

theorem good_statement_of {p : Platform} {W : Operators} {z : Name}
    (hu : ∀ (k : DnsKey) (msg s : Bytes), W.owns z k → CryptoOk p k.alg k.pubkey msg s → ∃ st, W.signed z st ∧ st.message = msg)
    (hfits : ∀ st, W.signed z st → (∀ l ∈ st.owner ++ st.signer, l ≠ [] ∧ l.length ≤ 63) ∧ ∀ d ∈ st.rdatas, d.length ≤ 65535)
    {sig : RRSig} {keys : List DnsKey}
    {records : List RR} (h : verifyRrsig p sig keys records = .ok ()) (hown : ∀ k ∈ keys, W.owns z k) (hne : records ≠ [])
    (hr : ∀ r ∈ records, Obtainable r.name ∧ (rdata r).length ≤ 65535) (hk : Obtainable sig.keyName) :
    ∃ st, W.signed z st ∧ st.ty = sig.ty ∧ st.origTtl = sig.origTtl ∧ st.expiration = sig.expiration ∧
      st.inception = sig.inception ∧ HasLabels sig.keyName st.signer ∧ (∀ d, d ∈ st.rdatas ↔ ∃ x ∈ records, rdata x = d) ∧
      WireLabels st.owner ∧ ∀ r ∈ records, signedOwner sig r = some (wire st.owner) := by
  obtain ⟨hty, k, msg, hf, hm, hc⟩ := (verifyRrsig_ok_iff p sig keys records).mp h
  obtain ⟨hmem, hel⟩ := firstEligible_mem hf
  obtain ⟨st, hst, e⟩ := hu k msg sig.signature (hown k hmem) (hel.alg ▸ hc)
  obtain ⟨f1, f2⟩ := hfits st hst
  obtain ⟨a1, a2, a3, a4, a5, a6, a7⟩ := statement_of_message hm e f1 f2 hne (fun r hx => ⟨hty r hx, hr r hx⟩) hk
  exact ⟨st, hst, a1, a2, a3, a4, a5, a6, fun l hl => f1 l (by simp [hl]), a7⟩

theorem good_statement {p : Platform} {W : Operators} {z : Name} (hz : HonestOperator p W z) {sig : RRSig} {keys : List DnsKey}
    {records : List RR} (h : verifyRrsig p sig keys records = .ok ()) (hown : ∀ k ∈ keys, W.owns z k) (hne : records ≠ [])
    (hr : ∀ r ∈ records, Obtainable r.name ∧ (rdata r).length ≤ 65535) (hk : Obtainable sig.keyName) :
    ∃ st, W.signed z st ∧ st.ty = sig.ty ∧ st.origTtl = sig.origTtl ∧ st.expiration = sig.expiration ∧
      st.inception = sig.inception ∧ HasLabels sig.keyName st.signer ∧ (∀ d, d ∈ st.rdatas ↔ ∃ x ∈ records, rdata x = d) ∧
      WireLabels st.owner ∧ ∀ r ∈ records, signedOwner sig r = some (wire st.owner) :=
  good_statement_of hz.unforgeable hz.fits h hown hne hr hk

/-! ### The chain of trust -/

theorem parsed_signers {dbg : Bool} {bs : Bytes} {inp : List RR} (h : parseRRStream dbg bs = .ok inp) {s : RRSig}
    (hs : RR.rrsig s ∈ inp) : Obtainable s.keyName := by
  rw [parseRRStream_iff] at h
  obtain ⟨ps, _, rfl, h3⟩ := h
  obtain ⟨x, hx, e⟩ := List.mem_map.mp hs
  have h := h3 x hx
  rw [e] at h
  obtain ⟨ttl, h⟩ := parseRR_ok h
  obtain ⟨name, ty, data, r1, _, _, _, h4⟩ := parseWirePacketRR_ok h
  exact (readRData_props h4).2.2.1 s.keyName (by simp [rdataNames])

theorem owned_labels {n : Name} {o : List Bytes} (h : OwnedBy n o) (hw : o.head? ≠ some (ascii "*")) : HasLabels n o := by
  rcases h with h | ⟨suf, rfl, _⟩
  · exact h
  · exact absurd rfl hw

variable {dbg : Bool} {p : Platform} {W : Operators} {bs : Bytes} {inp : List RR}

theorem keys_owned (hparse : parseRRStream dbg bs = .ok inp) {z : Name} (hz : HonestOperator p W z)
    (ha : ∀ k : DnsKey, k.name = z → Anchored p (anchors inp z) k → W.owns z k)
    {ksig : RRSig} (hk : ZoneKeysOk (codeCheck p) p inp z ksig) : ∀ k ∈ keysAt inp z, W.owns z k := by
  obtain ⟨_, before, after, hsigs, _, hgood⟩ := hk
  have hmem : ksig ∈ keySigs inp z := by rw [hsigs]; simp
  obtain ⟨s1, s2, s3⟩ := mem_keySigs.mp hmem
  intro k hkz
  have hin : ∀ r ∈ (keysAt inp z).map RR.dnskey, r ∈ inp ∧ r.name = z := by
    intro r hr
    obtain ⟨k', hk', rfl⟩ := List.mem_map.mp hr
    exact mem_keysAt.mp hk'
  obtain ⟨st, t1, t2, _, _, _, _, t7, t9, t8⟩ := good_statement hz hgood (by
      intro k' hk'
      obtain ⟨a, b⟩ := List.mem_filter.mp hk'
      exact ha k' (mem_keysAt.mp a).2 (by simpa using b)) (by
      intro h0
      have : RR.dnskey k ∈ (keysAt inp z).map RR.dnskey := List.mem_map_of_mem hkz
      rw [h0] at this; simp at this) (fun r hr => stream_sized hparse r (hin r hr).1) (parsed_signers hparse s1)
  obtain ⟨w1, w2⟩ := hz.keySets st t1 (t2.trans s3)
  have hm : RR.dnskey k ∈ (keysAt inp z).map RR.dnskey := List.mem_map_of_mem hkz
  have hl := owned_labels (signedOwner_owned (stream_sized hparse _ (hin _ hm).1).1 t9 (t8 _ hm)) w1
  have hkn := (mem_keysAt.mp hkz).2
  exact w2 (hkn ▸ hl) k hkn ((t7 _).mpr ⟨_, hm, rfl⟩)

theorem zones_owned (hparse : parseRRStream dbg bs = .ok inp) {fuel : Nat} {v : Verified}
    (hv : verifyRRStream dbg p fuel inp = some (.ok v))
    (hroot : ∀ k : DnsKey, k.name = rootName → Anchored p ianaAnchors k → W.owns rootName k) {n : Bytes}
    (hh : ∀ z : Name, (∃ pre, n = pre ++ z.bytes) → HonestOperator p W z) {z : Name} (hz : Reached (codeCheck p) p inp z) :
    (∃ pre, n = pre ++ z.bytes) → ∀ k ∈ keysAt inp z, W.owns z k := by
  obtain ⟨vst, hF, _⟩ := verifyRRStream_ok hv
  induction hz with
  | root =>
    intro hs
    obtain ⟨ksig, hk⟩ := hF.keys _ .root
    refine keys_owned hparse (hh _ hs) ?_ hk
    intro k hk1 hk2
    rw [anchors, if_pos rfl] at hk2
    exact hroot k hk1 hk2
  | delegated y ksig sig hy hyk hsig hty ih =>
    intro hs
    obtain ⟨ksig', hk⟩ := hF.keys _ (.delegated y ksig sig hy hyk hsig hty)
    refine keys_owned hparse (hh _ hs) ?_ hk
    intro k hk1 hk2
    by_cases hr : sig.name = rootName
    · rw [anchors, if_pos hr] at hk2
      rw [hr] at hk1 ⊢
      exact hroot k hk1 hk2
    · rw [anchors, if_neg hr] at hk2
      obtain ⟨hin, hgood⟩ := hsig
      obtain ⟨pre, hpre⟩ := hs
      have hys : ∃ pre, n = pre ++ y.bytes := by
        obtain ⟨q, hq⟩ := (endsWith_iff _ _).mp (hF.sigs y hy sig hin).1
        exact ⟨pre ++ q, by rw [hpre, hq, List.append_assoc]⟩
      have hrr : ∀ r ∈ rrset inp sig.name sig.ty, r ∈ inp := fun r h => (mem_rrset.mp h).1
      have hds : ∀ x, (∃ r ∈ rrset inp sig.name sig.ty, rdata r = x) ↔ ∃ d ∈ dsAt inp sig.name, rdata (.ds d) = x := by
        intro x
        constructor
        · rintro ⟨r, hx, rfl⟩
          obtain ⟨a, b, c⟩ := mem_rrset.mp hx
          rw [hty] at c
          cases r with
          | ds d => exact ⟨d, mem_dsAt.mpr ⟨a, b⟩, rfl⟩
          | _ => simp only [RR.ty] at c; exact absurd c (by decide)
        · rintro ⟨d, hx, rfl⟩
          obtain ⟨a, b⟩ := mem_dsAt.mp hx
          exact ⟨.ds d, mem_rrset.mpr ⟨a, b, hty.symm⟩, rfl⟩
      have hk3 := hk2
      obtain ⟨d, hd, _⟩ := hk3
      have hmd : RR.ds d ∈ rrset inp sig.name sig.ty := by
        obtain ⟨a, b⟩ := mem_dsAt.mp hd
        exact mem_rrset.mpr ⟨a, b, hty.symm⟩
      obtain ⟨st, t1, t2, _, _, _, _, t7, t9, t8⟩ := good_statement (hh y hys) hgood (ih hys)
        (by intro h0; rw [h0] at hmd; simp at hmd) (fun r hr => stream_sized hparse r (hrr r hr))
        (parsed_signers hparse (mem_sigsBy.mp hin).1)
      obtain ⟨w1, w2⟩ := (hh y hys).delegations st t1 (t2.trans hty)
      refine w2 sig.name (dsAt inp sig.name) ?_ (fun d h => (mem_dsAt.mp h).2) (fun x => (t7 x).trans (hds x)) k hk1 ?_
      · have := owned_labels (signedOwner_owned (stream_sized hparse _ (hrr _ hmd)).1 t9 (t8 _ hmd)) w1
        rwa [(mem_rrset.mp hmd).2.1] at this
      · exact hk2

theorem authenticated_signed (hparse : parseRRStream dbg bs = .ok inp) {fuel : Nat} {v : Verified}
    (hv : verifyRRStream dbg p fuel inp = some (.ok v))
    (hroot : ∀ k : DnsKey, k.name = rootName → Anchored p ianaAnchors k → W.owns rootName k) {r : RR}
    (hr : Authenticated (codeCheck p) p inp r)
    (hh : ∀ z : Name, (∃ pre, r.name.bytes = pre ++ z.bytes) → HonestOperator p W z) :
    ∃ z sig st, Reached (codeCheck p) p inp z ∧ SignedBy (codeCheck p) inp z sig ∧ sig.name = r.name ∧ sig.ty = r.ty ∧
      (∃ pre, r.name.bytes = pre ++ z.bytes) ∧ W.signed z st ∧
      st.ty = r.ty ∧ st.origTtl = sig.origTtl ∧ st.expiration = sig.expiration ∧ st.inception = sig.inception ∧
      HasLabels z st.signer ∧ (∀ d, d ∈ st.rdatas ↔ ∃ x ∈ rrset inp r.name r.ty, rdata x = d) ∧ OwnedBy r.name st.owner ∧
      WireLabels st.owner ∧ signedOwner sig r = some (wire st.owner) := by
  obtain ⟨z, ksig, sig, hz, hk, hs, hin, hn, ht⟩ := hr
  obtain ⟨vst, hF, _⟩ := verifyRRStream_ok hv
  have hsuf : ∃ pre, r.name.bytes = pre ++ z.bytes := by rw [hn]; exact (endsWith_iff _ _).mp (hF.sigs z hz sig hs.1).1
  obtain ⟨m1, m2, _⟩ := mem_sigsBy.mp hs.1
  have hm : r ∈ rrset inp sig.name sig.ty := mem_rrset.mpr ⟨hin, hn, ht⟩
  obtain ⟨st, t1, t2, t3, t4, t5, t6, t7, t9, t8⟩ := good_statement (hh z hsuf) hs.2 (zones_owned hparse hv hroot hh hz hsuf)
    (by intro h0; rw [h0] at hm; simp at hm) (fun r hr => stream_sized hparse r (mem_rrset.mp hr).1) (parsed_signers hparse m1)
  exact ⟨z, sig, st, hz, hs, hn.symm, ht.symm, hsuf, t1, t2.trans ht.symm, t3, t4, t5, m2 ▸ t6, by rw [hn, ht]; exact t7,
    signedOwner_owned (stream_sized hparse r hin).1 t9 (t8 r hm), t9, t8 r hm⟩

theorem wire_inj {a b : List Bytes} (ha : ∀ l ∈ a, l.length < 256) (hb : ∀ l ∈ b, l.length < 256) (e : wire a = wire b) : a = b := by
  have e2 : ∀ o, wire o = ((o ++ [[]]).map (fun l : Bytes => UInt8.ofNat l.length :: l)).flatten := by simp [wire]
  rw [e2, e2] at e
  have := enc_inj (fun l hl => by
      rcases List.mem_append.mp hl with hl | hl
      · exact ha l hl
      · simp at hl; subst hl; simp) (fun l hl => by
      rcases List.mem_append.mp hl with hl | hl
      · exact hb l hl
      · simp at hl; subst hl; simp) e
  exact (List.append_inj' this rfl).1

/-- Without expansion, the owner in the statement is the record's. -/
theorem owner_exact {sig : RRSig} {r : RR} {o : List Bytes} (hn : Obtainable r.name) (ho : WireLabels o) (hsn : sig.name = r.name)
    (hst : sig.ty = r.ty) (hx : ¬ Expanded sig) (h : signedOwner sig r = some (wire o)) : HasLabels r.name o := by
  unfold signedOwner at h
  simp only at h
  rw [if_neg ?_] at h
  · rw [Option.some.injEq] at h
    exact hasLabels_of_wire hn ho h
  · rintro ⟨h1, h2⟩
    exact hx ⟨fun e => h2 (by rw [← hsn, e]), by rw [hst]; exact h1⟩

/-- With expansion, it is a wildcard. -/
theorem owner_expanded {sig : RRSig} {r : RR} {o ls : List Bytes} (ho : WireLabels o) (hl : HasLabels r.name ls)
    (hsn : sig.name = r.name) (hst : sig.ty = r.ty) (hx : Expanded sig) (h : signedOwner sig r = some (wire o)) :
    o = ascii "*" :: ls.drop (ls.length - sig.labels.toNat) := by
  unfold signedOwner at h
  simp only at h
  rw [if_pos ⟨by rw [← hst]; exact hx.2, fun e => hx.1 (UInt8.toNat_inj.mp (by rw [hsn, e]))⟩] at h
  split at h
  · simp at h
  · rename_i h2
    rw [hl.labels_eq] at h2
    rw [hl.trailing, if_pos (by omega)] at h
    have hd : ∀ l ∈ ls.drop (ls.length - sig.labels.toNat), Label l := fun l h => hl.labels l (List.mem_of_mem_drop h)
    rw [Option.map_some, Option.some.injEq, writeName_text hd] at h
    have e : wire (ascii "*" :: ls.drop (ls.length - sig.labels.toNat)) = wire o := by rw [← h, wire_cons']; rfl
    symm
    refine wire_inj (fun l hm => ?_) (fun l hm => by have := ho l hm; omega) e
    rcases List.mem_cons.mp hm with rfl | hm
    · decide
    · have := (hd l hm).short; omega

end Dnssec
