import Verif.Spec.Malleable
import Verif.Proofs.WireLabels
import Verif.Proofs.Canonical
import Verif.Proofs.Stream
import Verif.Proofs.Txt

/-! # Streams that differ only in TTLs, the case of letters and the cutting of texts (C99) -/

namespace Dnssec

open Spec

theorem nameText_of_fold {s s' : Bytes} (e : s.map foldCase = s'.map foldCase) (h : NameText s) : NameText s' := by
  have hlen : s.length = s'.length := by simpa using congrArg List.length e
  refine ⟨?_, by have := h.short; omega, ?_, ?_⟩
  · obtain ⟨t, rfl⟩ := h.endsInDot
    rcases List.eq_nil_or_concat s' with h0 | ⟨u, x, h0⟩
    · subst h0; simp at hlen
    · rw [List.concat_eq_append] at h0
      subst h0
      refine ⟨u, ?_⟩
      rw [List.map_append, List.map_append] at e
      have := (List.append_inj' e (by simp)).2
      simp only [List.map_cons, List.map_nil, List.cons.injEq, and_true] at this
      rw [show foldCase 46 = 46 from rfl] at this
      rw [(foldCase_eq_dot x).mp this.symm]
  · intro c hc
    have : foldCase c ∈ s.map foldCase := e ▸ List.mem_map_of_mem hc
    obtain ⟨d, hd, hdc⟩ := List.mem_map.mp this
    have hp := h.printable d hd
    by_cases h46 : c = 46
    · subst h46; decide
    · have hd46 : d ≠ 46 := fun e' => h46 ((foldCase_eq_dot c).mp (by rw [← hdc, e']; rfl))
      have h1 := (foldCase_char d).mpr ⟨hp.1, hp.2.1, hp.2.2, fun e' => hd46 (UInt8.toNat_inj.mp e')⟩
      rw [hdc] at h1
      have h2 := (foldCase_char c).mp h1
      exact ⟨h2.1, h2.2.1, h2.2.2.1⟩
  · intro pre label post hs hd
    have hsplit : s = s.take pre.length ++ (s.drop pre.length).take label.length ++ (s.drop pre.length).drop label.length := by
      rw [List.append_assoc, List.take_append_drop, List.take_append_drop]
    have hl := h.labels _ _ _ hsplit ?_
    · rw [List.length_take, List.length_drop, hlen, hs] at hl
      simp only [List.length_append] at hl
      omega
    · intro hm
      apply hd
      have e1 : ((s.drop pre.length).take label.length).map foldCase = label.map foldCase := by
        rw [List.map_take, List.map_drop, e, hs]
        simp
      have h2 : foldCase 46 ∈ label.map foldCase := e1 ▸ List.mem_map_of_mem hm
      obtain ⟨x, hx, hx'⟩ := List.mem_map.mp h2
      rw [← (foldCase_eq_dot x).mp (by rw [hx']; rfl)]
      exact hx

theorem nameText_fold_iff {s s' : Bytes} (e : s.map foldCase = s'.map foldCase) : NameText s ↔ NameText s' :=
  ⟨nameText_of_fold e, nameText_of_fold e.symm⟩

theorem Spec.SameLetters.symm {ls ls' : List Bytes} (h : SameLetters ls ls') : SameLetters ls' ls := by
  refine ⟨?_, h.letters.symm⟩
  intro l hl
  have : l.map foldCase ∈ lowerLabels ls := h.letters ▸ List.mem_map_of_mem hl
  obtain ⟨m, hm, e⟩ := List.mem_map.mp this
  have hm' := h.sizes m hm
  have e2 : m.length = l.length := by simpa using congrArg List.length e
  refine ⟨?_, by omega⟩
  intro h0
  subst h0
  exact hm'.1 (List.length_eq_zero_iff.mp e2)

theorem wire_cons (l : Bytes) (ls : List Bytes) (rest : Bytes) :
    wire (l :: ls) ++ rest = UInt8.ofNat l.length :: (l ++ (wire ls ++ rest)) := by
  simp [wire, List.append_assoc]

theorem decodes_wire_iff {k : Nat} {ls : List Bytes} (hl : ∀ l ∈ ls, l ≠ [] ∧ l.length ≤ 63) {msg rest t r : Bytes} :
    Decodes msg k (wire ls ++ rest) t r ↔ t = (ls.map (fun l => l ++ [46])).flatten ∧ r = rest := by
  constructor
  · intro h
    induction ls generalizing t with
    | nil =>
      rw [show wire [] ++ rest = 0 :: rest from rfl] at h
      cases h with
      | stop => exact ⟨rfl, rfl⟩
      | label k len l inp text rest h1 h2 =>
        exact absurd (List.length_eq_zero_iff.mp h2.symm) h1
      | pointer k hi lo text rest rest' h1 => simp at h1
    | cons l ls ih =>
      have h1 := hl l (by simp)
      rw [wire_cons] at h
      have hn : (UInt8.ofNat l.length).toNat = l.length := by rw [UInt8.toNat_ofNat']; omega
      have hpos : 0 < l.length := List.length_pos_iff.mpr h1.1
      generalize hx : UInt8.ofNat l.length = x at h hn
      generalize hy : l ++ (wire ls ++ rest) = y at h
      cases h with
      | stop => simp at hn; omega
      | label k len m inp text rest a b c d =>
        have := List.append_inj hy (by omega)
        obtain ⟨rfl, rfl⟩ := this
        obtain ⟨e1, e2⟩ := ih (fun z hz => hl z (by simp [hz])) d
        exact ⟨by simp [e1], e2⟩
      | pointer k hi lo text rest rest' a => omega
  · rintro ⟨rfl, rfl⟩
    induction ls with
    | nil => exact Decodes.stop k r
    | cons l ls ih =>
      have h1 := hl l (by simp)
      have hn : (UInt8.ofNat l.length).toNat = l.length := by rw [UInt8.toNat_ofNat']; omega
      rw [wire_cons]
      have := Decodes.label (msg := msg) k (UInt8.ofNat l.length) l _ _ r h1.1 hn (Or.inl (by omega)) (ih fun z hz => hl z (by simp [hz]))
      simpa using this

/-- Reading a name given by its labels: the result does not depend on the case of the letters, and what follows is left. -/
theorem readName_same {ls ls' : List Bytes} (h : SameLetters ls ls') :
    (∃ n, ∀ msg rest, readName msg (wire ls ++ rest) = .ok (n, rest) ∧ readName msg (wire ls' ++ rest) = .ok (n, rest)) ∨
      ∀ msg rest, readName msg (wire ls ++ rest) = .err () ∧ readName msg (wire ls' ++ rest) = .err () := by
  have hsz' := h.symm.sizes
  have hiff : ∀ {ls : List Bytes}, (∀ l ∈ ls, l ≠ [] ∧ l.length ≤ 63) → ∀ {msg rest : Bytes} {n : Name} {r : Bytes},
      readName msg (wire ls ++ rest) = .ok (n, r) ↔ NameText (text ls) ∧ n.bytes = (text ls).map foldCase ∧ r = rest := by
    intro ls hl msg rest n r
    rw [readName_reads]
    unfold ReadsName
    simp only [decodes_wire_iff hl]
    constructor
    · rintro ⟨t, ⟨rfl, rfl⟩, a, b⟩
      rw [orRoot_flatten] at a b
      exact ⟨a, b, rfl⟩
    · rintro ⟨a, b, rfl⟩
      exact ⟨_, ⟨rfl, rfl⟩, by rwa [orRoot_flatten], by rwa [orRoot_flatten]⟩
  have e : (text ls).map foldCase = (text ls').map foldCase := by rw [text_lowerLabels, text_lowerLabels, h.letters]
  by_cases hn : NameText (text ls)
  · refine .inl ⟨⟨(text ls).map foldCase⟩, fun msg rest => ⟨(hiff h.sizes).mpr ⟨hn, rfl, rfl⟩, (hiff hsz').mpr ⟨nameText_of_fold e hn, e, rfl⟩⟩⟩
  · have hn' : ¬ NameText (text ls') := fun h' => hn (nameText_of_fold e.symm h')
    refine .inr fun msg rest => ⟨?_, ?_⟩
    · cases hr : readName msg (wire ls ++ rest) with
      | ok v => exact absurd ((hiff h.sizes).mp (show _ = Res.ok (v.1, v.2) from hr)).1 hn
      | err e => rfl
      | panic => exact absurd hr (readName_no_panic _ _)
    · cases hr : readName msg (wire ls' ++ rest) with
      | ok v => exact absurd ((hiff hsz').mp (show _ = Res.ok (v.1, v.2) from hr)).1 hn'
      | err e => rfl
      | panic => exact absurd hr (readName_no_panic _ _)

theorem eighteen {b : Bytes} (h : b.length = 18) : ∃ b0 b1 b2 b3 b4 b5 b6 b7 b8 b9 b10 b11 b12 b13 b14 b15 b16 b17,
    b = [b0, b1, b2, b3, b4, b5, b6, b7, b8, b9, b10, b11, b12, b13, b14, b15, b16, b17] := by
  match b, h with
  | [b0, b1, b2, b3, b4, b5, b6, b7, b8, b9, b10, b11, b12, b13, b14, b15, b16, b17], _ =>
    exact ⟨b0, b1, b2, b3, b4, b5, b6, b7, b8, b9, b10, b11, b12, b13, b14, b15, b16, b17, rfl⟩

theorem nameOffset_cases {ty : UInt16} {k : Nat} (h : nameOffset ty.toNat = some k) :
    (k = 0 ∧ (ty = nsType ∨ ty = cnameType ∨ ty = dnameType ∨ ty = nsecType)) ∨ (k = 18 ∧ ty = rrsigType) := by
  unfold nameOffset at h
  split at h
  all_goals (try rename_i hty)
  · exact .inl ⟨by simpa using h.symm, .inl (UInt16.toNat_inj.mp hty)⟩
  · exact .inl ⟨by simpa using h.symm, .inr (.inl (UInt16.toNat_inj.mp hty))⟩
  · exact .inl ⟨by simpa using h.symm, .inr (.inr (.inl (UInt16.toNat_inj.mp hty)))⟩
  · exact .inr ⟨by simpa using h.symm, UInt16.toNat_inj.mp hty⟩
  · exact .inl ⟨by simpa using h.symm, .inr (.inr (.inr (UInt16.toNat_inj.mp hty)))⟩
  · simp at h

theorem readRData_same {dbg : Bool} {msg : Bytes} {ty : UInt16} {n : Name} {d d' : Bytes} (h : SameRData ty d d') :
    readRData dbg msg ty n d = readRData dbg msg ty n d' := by
  cases h with
  | same => rfl
  | txt ss ss' hty h1 h2 e =>
    subst hty
    have a := (txtReadLoop_iff (charStrings ss).length (charStrings ss) [] ss.flatten (Nat.le_refl _)).mpr
      ⟨ss, rfl, fun s hs => by have := h1 s hs; omega, rfl⟩
    have b := (txtReadLoop_iff (charStrings ss').length (charStrings ss') [] ss'.flatten (Nat.le_refl _)).mpr
      ⟨ss', rfl, fun s hs => by have := h2 s hs; omega, rfl⟩
    simp [readRData, aType, aaaaType, nsType, txtType, Txt.read, a, b, e]
  | name before ls ls' after ho hs =>
    have hr : readName msg (wire ls ++ after) = readName msg (wire ls' ++ after) := by
      rcases readName_same hs with ⟨m, hm⟩ | hm
      · rw [(hm msg after).1, (hm msg after).2]
      · rw [(hm msg after).1, (hm msg after).2]
    rcases nameOffset_cases ho with ⟨h0, hty⟩ | ⟨h18, hty⟩
    · rw [List.length_eq_zero_iff.mp h0]
      simp only [List.nil_append]
      rcases hty with rfl | rfl | rfl | rfl <;>
        simp [readRData, aType, aaaaType, nsType, txtType, cnameType, dnameType, tlsaType, dnskeyType, dsType, rrsigType, nsecType,
          NS.read, CName.read, DName.read, NSec.read, hr]
    · obtain ⟨b0, b1, b2, b3, b4, b5, b6, b7, b8, b9, b10, b11, b12, b13, b14, b15, b16, b17, rfl⟩ := eighteen h18
      subst hty
      simp [readRData, aType, aaaaType, nsType, txtType, cnameType, dnameType, tlsaType, dnskeyType, dsType, rrsigType,
        RRSig.read, readU16, readU32, readU8, hr]

/-- The first records of two such streams: read alike, leaving what follows. -/
theorem parseRR_same {dbg : Bool} {ls ls' : List Bytes} {ty cls : UInt16} {ttl ttl' : UInt32} {len len' : UInt16} {data data' : Bytes}
    (hn : SameLetters ls ls') (hlen : len.toNat = data.length) (hlen' : len'.toNat = data'.length) (hd : SameRData ty data data') (more more' : Bytes) :
    (∃ rr, parseRR dbg (wire ls ++ (be16 ty ++ (be16 cls ++ (be32 ttl ++ (be16 len ++ (data ++ more)))))) = .ok (rr, more) ∧
      parseRR dbg (wire ls' ++ (be16 ty ++ (be16 cls ++ (be32 ttl' ++ (be16 len' ++ (data' ++ more')))))) = .ok (rr, more')) ∨
    (parseRR dbg (wire ls ++ (be16 ty ++ (be16 cls ++ (be32 ttl ++ (be16 len ++ (data ++ more)))))) = .err () ∧
      parseRR dbg (wire ls' ++ (be16 ty ++ (be16 cls ++ (be32 ttl' ++ (be16 len' ++ (data' ++ more')))))) = .err ()) ∨
    (parseRR dbg (wire ls ++ (be16 ty ++ (be16 cls ++ (be32 ttl ++ (be16 len ++ (data ++ more)))))) = .panic ∧
      parseRR dbg (wire ls' ++ (be16 ty ++ (be16 cls ++ (be32 ttl' ++ (be16 len' ++ (data' ++ more')))))) = .panic) := by
  unfold parseRR parseWirePacketRR
  rcases readName_same hn with ⟨n, hm⟩ | hm
  · rw [(hm _ _).1, (hm _ _).2]
    simp only [Res.ok_bind, readU16_be16, readU32_be32]
    by_cases hc : cls ≠ 1
    · simp [hc]
    · simp only [hc, if_false, hlen, hlen', List.length_append]
      rw [if_neg (by omega), if_neg (by omega)]
      rw [List.take_left, List.drop_left, List.take_left, List.drop_left, readRData_same hd]
      cases readRData dbg [] ty n data' with
      | ok rr => exact .inl ⟨rr, rfl, rfl⟩
      | err e => exact .inr (.inl ⟨rfl, rfl⟩)
      | panic => exact .inr (.inr ⟨rfl, rfl⟩)
  · rw [(hm _ _).1, (hm _ _).2]
    exact .inr (.inl ⟨rfl, rfl⟩)

theorem wire_append_ne (ls : List Bytes) (x : Bytes) : wire ls ++ x ≠ [] := by simp [wire]

theorem parseRRStream_same {dbg : Bool} {a b : Bytes} (h : SameRecords a b) : parseRRStream dbg a = parseRRStream dbg b := by
  induction h with
  | same => rfl
  | record ls ls' ty cls ttl ttl' len len' data data' more more' hn hlen hlen' hd _ ih =>
    rcases parseRR_same (dbg := dbg) (cls := cls) (ttl := ttl) (ttl' := ttl') hn hlen hlen' hd more more' with ⟨rr, h1, h2⟩ | ⟨h1, h2⟩ | ⟨h1, h2⟩
    · rw [parseRRStream_step h1, parseRRStream_step h2, ih]
    · rw [parseRRStream_err (wire_append_ne _ _) h1, parseRRStream_err (wire_append_ne _ _) h2]
    · rw [parseRRStream_panic (wire_append_ne _ _) h1, parseRRStream_panic (wire_append_ne _ _) h2]

end Dnssec
