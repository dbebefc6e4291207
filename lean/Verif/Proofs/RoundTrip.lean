import Verif.Proofs.Operators
import Verif.Proofs.Parsed
import Verif.Proofs.QueryBuf

/-! # Only encodable records survive writing and reading -/

namespace Dnssec

open Spec


/-- As `Pieces`, with labels of at most 63 bytes. -/
inductive ShortPieces : Bytes → Prop
  | last : ShortPieces [0]
  | cons (l P : Bytes) : l.length ≤ 63 → ShortPieces P → ShortPieces (UInt8.ofNat l.length :: (l ++ P))

theorem shortPieces_flatten {ps : List Bytes} (h : ∀ l ∈ ps, l.length ≤ 63) :
    ShortPieces ((ps.map (fun l => UInt8.ofNat l.length :: l)).flatten ++ [0]) := by
  induction ps with
  | nil => exact .last
  | cons l ps ih =>
    have := ShortPieces.cons l _ (h l (by simp)) (ih (fun x hx => h x (by simp [hx])))
    simpa using this

theorem Spec.Obtainable.shortPieces {n : Name} (h : Obtainable n) : ShortPieces (writeName n.bytes) := by
  have hn := h.nameLike
  unfold writeName
  simp only [hn.lower]
  split
  · exact .last
  · rcases hn.ends with he | ⟨t, ht⟩
    · obtain ⟨u, hu⟩ := h.nameText.1.endsInDot
      rw [he] at hu; simp at hu
    · have e := splitDot_append_dot t
      have hs := hn.short
      rw [ht, show (46 : UInt8) = dot from rfl, e] at *
      have := shortPieces_flatten (ps := splitDot t) (fun l hl => hs l (by simp [hl]))
      simpa using this

/-- Reading what starts with such pieces: labels up to the first empty one. -/
theorem ShortPieces.decodes {msg P : Bytes} (h : ShortPieces P) : ∀ {k : Nat} {X t r : Bytes}, Decodes msg k (P ++ X) t r →
    ∃ ls, WireLabels ls ∧ P ++ X = wire ls ++ r ∧ t = (ls.map (fun l => l ++ [46])).flatten := by
  induction h with
  | last =>
    intro k X t r hd
    cases hd with
    | stop => exact ⟨[], by intro l hl; simp at hl, rfl, rfl⟩
    | label _ len l inp text rest h1 h2 h3 h4 =>
      exact absurd (List.length_eq_zero_iff.mp (by simpa using h2.symm)) h1
    | pointer _ _ _ _ _ _ h1 => simp at h1
  | cons l P hl hP ih =>
    intro k X t r hd
    have hlen : (UInt8.ofNat l.length).toNat = l.length := by rw [UInt8.toNat_ofNat']; omega
    rw [List.cons_append] at hd
    generalize hin : UInt8.ofNat l.length :: (l ++ P ++ X) = inp at hd
    cases hd with
    | stop _ rest =>
      obtain ⟨e1, e2⟩ := List.cons.inj hin
      exact ⟨[], by intro l hl; simp at hl, by rw [List.cons_append, hin]; rfl, rfl⟩
    | label _ len l' inp text rest h1 h2 h3 h4 =>
      obtain ⟨e1, e2⟩ := List.cons.inj hin
      have hll : l.length = l'.length := by rw [← h2, ← e1, hlen]
      rw [List.append_assoc] at e2
      obtain ⟨rfl, rfl⟩ := List.append_inj e2 hll
      obtain ⟨ls, f1, f2, f3⟩ := ih h4
      refine ⟨l :: ls, ?_, ?_, by rw [f3]; simp⟩
      · intro x hx
        rcases List.mem_cons.mp hx with rfl | hx
        · exact ⟨h1, hl⟩
        · exact f1 x hx
      · rw [wire_cons', List.cons_append, List.append_assoc, f2]; simp
    | pointer _ hi lo _ rest _ h1 =>
      obtain ⟨e1, _⟩ := List.cons.inj hin
      rw [← e1, hlen] at h1
      omega

/-- A name that is read from its own wire form has no empty label. -/
theorem readName_write_labels {msg : Bytes} {n : Name} {X r : Bytes} (h : readName msg (writeName n.bytes ++ X) = .ok (n, r)) :
    ∃ ls, HasLabels n ls := by
  have ho : Obtainable n := readName_obtainable h
  rw [readName_iff] at h
  obtain ⟨t, hd, _, hb⟩ := h
  obtain ⟨ls, w1, w2, w3⟩ := ho.shortPieces.decodes hd
  by_cases hl : ls = []
  · subst hl
    simp only [List.map_nil, List.flatten_nil] at w3
    subst w3
    exact ⟨[], by intro l hl; simp at hl, by rw [hb]; decide, ho.nameText.1.short⟩
  · rcases ho.nameLike.pieces.split w1 w2 with ⟨e, _⟩ | ⟨P2, hP2, e⟩
    · exact ⟨ls, hasLabels_of_wire ho w1 e⟩
    · exfalso
      have h1 := writeName_length_le n.bytes
      have h2 := congrArg List.length w2
      have h3 := congrArg List.length e
      have h4 : 0 < P2.length := by cases hP2 <;> simp
      have h5 : n.bytes.length = (wire ls).length - 1 := by
        rw [hb, lower_length, orRoot, w3, wire_length]
        split
        · rename_i h0
          cases ls with
          | nil => exact absurd rfl hl
          | cons => simp at h0
        · simp [List.length_flatten, List.map_map, Function.comp_def]
      have h6 := wire_length ls
      simp only [List.length_append] at h2 h3
      omega

/-- The names in the RDATA of a record that is read from its own RDATA have no empty label. -/
theorem readRData_write_labels {dbg : Bool} {rr : RR} (h : readRData dbg [] rr.ty rr.name (rdata rr) = .ok rr) :
    ∀ n ∈ rdataNames rr, ∃ ls, HasLabels n ls := by
  have mapCase : ∀ {α : Type} {x : Res Unit α} {f : α → RR}, x.map f = .ok rr → ∃ a, x = .ok a ∧ f a = rr := by
    intro α x f h
    cases x <;> simp at h ⊢
    exact h
  have nameCase : ∀ {α : Type} {f : Name → α} {g : α → RR} {d : Bytes},
      ((do let (n, data) ← readName [] d; debugAssert dbg data.isEmpty; pure (f n)) : Res Unit α).map g = .ok rr →
      ∃ n rest, readName [] d = .ok (n, rest) ∧ rr = g (f n) := by
    intro α f g d h
    obtain ⟨v, h, hv⟩ := mapCase h
    rw [Res.bind_ok_iff] at h
    obtain ⟨⟨n, rest⟩, h1, h⟩ := h
    simp only [] at h
    rw [Res.bind_ok_iff] at h
    obtain ⟨_, _, h⟩ := h
    simp only [Res.pure_eq, Res.ok.injEq] at h
    exact ⟨n, rest, h1, by rw [← hv, ← h]⟩
  cases rr with
  | a r => intro n hn; simp [rdataNames] at hn
  | aaaa r => intro n hn; simp [rdataNames] at hn
  | txt r => intro n hn; simp [rdataNames] at hn
  | tlsa r => intro n hn; simp [rdataNames] at hn
  | dnskey r => intro n hn; simp [rdataNames] at hn
  | ds r => intro n hn; simp [rdataNames] at hn
  | nsec3 r => intro n hn; simp [rdataNames] at hn
  | ns r =>
    intro n hn
    obtain rfl : n = r.nameServer := by simpa [rdataNames] using hn
    rw [show (RR.ns r).ty = nsType from rfl, readRData_ns, rdata_ns] at h
    obtain ⟨m, rest, e1, e2⟩ := nameCase (f := NS.mk r.name) h
    obtain rfl : r.nameServer = m := by cases r; simp at e2; exact e2
    exact readName_write_labels (X := []) (by simpa using e1)
  | cname r =>
    intro n hn
    obtain rfl : n = r.canonicalName := by simpa [rdataNames] using hn
    rw [show (RR.cname r).ty = cnameType from rfl, readRData_cname, rdata_cname] at h
    obtain ⟨m, rest, e1, e2⟩ := nameCase (f := CName.mk r.name) h
    obtain rfl : r.canonicalName = m := by cases r; simp at e2; exact e2
    exact readName_write_labels (X := []) (by simpa using e1)
  | dname r =>
    intro n hn
    obtain rfl : n = r.delegationName := by simpa [rdataNames] using hn
    rw [show (RR.dname r).ty = dnameType from rfl, readRData_dname, rdata_dname] at h
    obtain ⟨m, rest, e1, e2⟩ := nameCase (f := DName.mk r.name) h
    obtain rfl : r.delegationName = m := by cases r; simp at e2; exact e2
    exact readName_write_labels (X := []) (by simpa using e1)
  | rrsig r =>
    intro n hn
    obtain rfl : n = r.keyName := by simpa [rdataNames] using hn
    rw [show (RR.rrsig r).ty = rrsigType from rfl, readRData_rrsig] at h
    obtain ⟨v, ha, hv⟩ := mapCase h
    unfold RRSig.read at ha
    simp only [Res.bind_ok_iff, Prod.exists, Res.pure_eq, Res.ok.injEq] at ha
    obtain ⟨t, d1, e1, al, d2, e2, lb, d3, e3, ot, d4, e4, ex, d5, e5, inc, d6, e6, kt, d7, e7, kn, d8, e8, rfl⟩ := ha
    have hd := readU16_rest e1
    rw [readU8_ok e2, readU8_ok e3, readU32_rest e4, readU32_rest e5, readU32_rest e6, readU16_rest e7, rdata_rrsig] at hd
    have hk : kn = r.keyName := by
      have := RR.rrsig.inj hv; rw [← this]
    subst hk
    have hd' := congrArg (List.drop 18) hd
    simp only [be16, be32, List.cons_append, List.nil_append, List.drop_succ_cons, List.drop_zero] at hd'
    exact readName_write_labels (X := r.signature) (by rw [hd']; exact e8)
  | nsec r =>
    intro n hn
    obtain rfl : n = r.nextName := by simpa [rdataNames] using hn
    rw [show (RR.nsec r).ty = nsecType from rfl, readRData_nsec] at h
    obtain ⟨v, ha, hv⟩ := mapCase h
    unfold NSec.read at ha
    simp only [Res.bind_ok_iff, Prod.exists, Res.pure_eq, Res.ok.injEq] at ha
    obtain ⟨n, d1, e1, m, e2, rfl⟩ := ha
    have hk : n = r.nextName := by
      have := RR.nsec.inj hv; rw [← this]
    subst hk
    rw [rdata_nsec] at e1
    exact readName_write_labels e1

/-- Only encodable records are read back as they were written. -/
theorem encodable_of_round_trip {dbg : Bool} {rr : RR} {ttl : UInt32} {rest : Bytes}
    (h : parseRR dbg (writeRR rr ttl ++ rest) = .ok (rr, rest)) : Encodable rr := by
  obtain ⟨ttl', h'⟩ := parseRR_ok h
  obtain ⟨name, ty, data, r1, h1, h2, h3, h4⟩ := parseWirePacketRR_ok h'
  obtain ⟨p1, p2, p3, p4, _⟩ := readRData_props h4
  subst p1 p2
  have hw : writeRR rr ttl ++ rest = writeName rr.name.bytes ++ (be16 rr.ty ++ (be16 1 ++ (be32 ttl ++ (rr.writeData ++ rest)))) := by
    simp [writeRR]
  rw [hw] at h1
  obtain ⟨ls, hl⟩ := readName_write_labels h1
  rw [hl.writeName, readName_wire [] hl] at h1
  simp only [Res.ok.injEq, Prod.mk.injEq, true_and] at h1
  rw [← h1] at h2
  obtain ⟨_, h2⟩ := List.append_inj h2 rfl
  obtain ⟨_, h2⟩ := List.append_inj h2 rfl
  obtain ⟨_, h2⟩ := List.append_inj h2 rfl
  rw [← List.append_assoc] at h2
  have hd := List.append_cancel_right h2
  have htxt : ∀ t, rr = .txt t → t.data ≠ [] := by
    rintro t rfl h0
    have : (RR.txt t).writeData = [0, 0, 0] := by
      obtain ⟨n, d⟩ := t
      simp only at h0
      subst h0
      simp only [RR.writeData, Txt.writeData]; decide
    rw [this] at hd
    have e := congrArg List.length hd
    simp only [List.length_append, be16_length, List.length_cons, List.length_nil] at e
    rw [show data.length = 1 by omega] at hd
    have := (List.append_inj (s₁ := [0, 0]) (s₂ := be16 1) (t₁ := [0]) hd rfl).1
    exact absurd this (by decide)
  rw [writeData_eq rr htxt] at hd
  obtain ⟨_, rfl⟩ := List.append_inj hd rfl
  exact ⟨⟨ls, hl⟩, readRData_write_labels h4, htxt, h3, p4⟩

theorem flatten_no_leading_dot {ls : List Bytes} (h : ∀ l ∈ ls, Label l) (t : Bytes) :
    (ls.map (fun l => l ++ [46])).flatten ≠ 46 :: t := by
  cases ls with
  | nil => simp
  | cons l ls =>
    obtain ⟨h1, _, h3⟩ := h l (by simp)
    cases l with
    | nil => exact absurd rfl h1
    | cons c l =>
      intro e
      simp only [List.map_cons, List.flatten_cons, List.cons_append, List.cons.injEq] at e
      have := (h3 c (by simp)).2.2.2.1
      rw [e.1] at this
      exact this rfl

theorem flatten_no_double_dot {ls : List Bytes} (h : ∀ l ∈ ls, Label l) : ∀ a b : Bytes,
    (ls.map (fun l => l ++ [46])).flatten ≠ a ++ [46, 46] ++ b := by
  induction ls with
  | nil => intro a b e; simp at e
  | cons l ls ih =>
    intro a b e
    have hs : ∀ x ∈ ls, Label x := fun x hx => h x (by simp [hx])
    simp only [List.map_cons, List.flatten_cons, List.append_assoc, List.cons_append, List.nil_append] at e
    rcases List.append_eq_append_iff.mp e with ⟨a', e1, e2⟩ | ⟨c', e1, e2⟩
    · cases a' with
      | nil =>
        simp only [List.nil_append, List.cons.injEq, true_and] at e2
        exact flatten_no_leading_dot hs _ e2
      | cons x a' =>
        simp only [List.cons_append, List.cons.injEq] at e2
        exact ih hs a' b (by rw [e2.2]; simp)
    · cases c' with
      | nil =>
        simp only [List.nil_append, List.cons.injEq, true_and] at e2
        exact flatten_no_leading_dot hs _ e2.symm
      | cons x c' =>
        simp only [List.cons_append, List.cons.injEq] at e2
        have := ((h l (by simp)).chars 46 (by rw [e1, e2.1]; simp)).2.2.2.1
        exact this rfl

theorem Spec.HasLabels.noEmptyLabel {n : Name} {ls : List Bytes} (h : HasLabels n ls) : NoEmptyLabel n := by
  by_cases hl : ls = []
  · subst hl; exact Or.inl h.bytes
  · right
    have e := h.bytes
    rw [text, if_neg hl] at e
    rw [e]
    exact ⟨flatten_no_leading_dot h.labels, flatten_no_double_dot h.labels⟩

end Dnssec
