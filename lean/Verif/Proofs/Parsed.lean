import Verif.Proofs.Stream

/-! # Records read from a proof stream are encodable again -/

namespace Dnssec

open Spec

theorem readName_wire_le {data : Bytes} {n : Name} {rest : Bytes} (h : readName [] data = .ok (n, rest)) {ls : List Bytes}
    (hl : HasLabels n ls) : (wire ls).length + rest.length ≤ data.length := by
  rw [readName_iff] at h
  obtain ⟨t, h1, _, h3⟩ := h
  obtain ⟨p, e1, _, e3⟩ := Decodes_nil_split h1
  rw [e1, List.length_append, e3]
  by_cases he : ls = []
  · subst he; simp [wire]
  · have : (text ls).length = (orRoot t).length := by rw [← hl.bytes, h3, lower_length]
    rw [wire_length, ← text_length he, this]
    unfold orRoot
    split
    · rename_i ht
      subst ht
      -- a non-empty label list has a text longer than one byte
      exfalso
      rw [orRoot, if_pos rfl] at h3
      have : text ls = [dot] := by rw [← hl.bytes, h3]; rfl
      exact text_nonroot he hl.labels this
    · omega

theorem txtV_length_le {ss : List Bytes} (h : ∀ s ∈ ss, s.length ≤ 255) :
    (txtV ss.flatten).length ≤ (charStrings ss).length := by
  rw [txtV_length _ _ rfl]
  have h1 : ss.flatten.length ≤ 255 * ss.length := by
    induction ss with
    | nil => simp
    | cons s ss ih =>
      have := ih (fun x hx => h x (by simp [hx]))
      have := h s (by simp)
      simp at *; omega
  have h2 : (charStrings ss).length = ss.flatten.length + ss.length := by
    clear h h1
    induction ss with
    | nil => rfl
    | cons s ss ih => simp [charStrings] at *; omega
  rw [h2]; omega

/-- Names of a parsed record are obtainable. -/
theorem readRData_props {dbg : Bool} {msg : Bytes} {ty : UInt16} {name : Name} {data : Bytes} {rr : RR}
    (h : readRData dbg msg ty name data = .ok rr) :
    rr.name = name ∧ rr.ty = ty ∧ (∀ n ∈ rdataNames rr, Obtainable n) ∧
    (∀ n, rr = .nsec3 n → n.salt.length ≤ 255 ∧ n.nextNameHash.length ≤ 255) ∧
    ((∃ r d, rr = .txt r ∧ txtReadLoop data.length data [] = .ok d ∧ r.data = d) ∨
     (∃ n rest, readName msg data = .ok (n, rest) ∧ n ∈ rdataNames rr ∧ rdata rr = writeName n.bytes) ∨
     (∃ r pre tl, rr = .rrsig r ∧ data = pre ++ tl ∧ pre.length = 18 ∧ readName msg tl = .ok (r.keyName, r.signature)) ∨
     (∃ r, rr = .nsec r) ∨ (∃ r, rr = .nsec3 r) ∨ (rdata rr).length = data.length) := by
  have nameCase : ∀ {α : Type} {f : Name → α} {v : α},
      ((do let (n, data) ← readName msg data; debugAssert dbg data.isEmpty; pure (f n)) : Res Unit α) = .ok v →
      ∃ n rest, readName msg data = .ok (n, rest) ∧ v = f n := by
    intro α f v h
    rw [Res.bind_ok_iff] at h
    obtain ⟨⟨n, rest⟩, h1, h⟩ := h
    simp only [] at h
    rw [Res.bind_ok_iff] at h
    obtain ⟨_, _, h⟩ := h
    simp only [Res.pure_eq, Res.ok.injEq] at h
    exact ⟨n, rest, h1, h.symm⟩
  have mapCase : ∀ {α : Type} {x : Res Unit α} {f : α → RR}, x.map f = .ok rr → ∃ a, x = .ok a ∧ rr = f a := by
    intro α x f h
    cases x <;> simp at h ⊢
    exact h.symm
  by_cases h1 : ty = aType
  · subst h1; rw [readRData_a] at h
    obtain ⟨a, ha, rfl⟩ := mapCase h
    unfold A.read at ha
    split at ha
    · rename_i hl
      simp only [Res.ok.injEq] at ha; subst ha
      refine ⟨rfl, rfl, by simp [rdataNames], by simp, ?_⟩
      rw [rdata_a]; simp
    · simp at ha
  by_cases h2 : ty = aaaaType
  · subst h2; rw [readRData_aaaa] at h
    obtain ⟨a, ha, rfl⟩ := mapCase h
    unfold AAAA.read at ha
    split at ha
    · simp only [Res.ok.injEq] at ha; subst ha
      refine ⟨rfl, rfl, by simp [rdataNames], by simp, ?_⟩
      rw [rdata_aaaa]; simp
    · simp at ha
  by_cases h3 : ty = nsType
  · subst h3; rw [readRData_ns] at h
    obtain ⟨a, ha, rfl⟩ := mapCase h
    obtain ⟨n, rest, e1, rfl⟩ := nameCase (f := NS.mk name) ha
    refine ⟨rfl, rfl, by simp [rdataNames]; exact readName_obtainable e1, by simp, ?_⟩
    exact Or.inr (Or.inl ⟨n, rest, e1, by simp [rdataNames], rdata_ns _⟩)
  by_cases h4 : ty = txtType
  · subst h4; rw [readRData_txt] at h
    obtain ⟨a, ha, rfl⟩ := mapCase h
    unfold Txt.read at ha
    cases hr : txtReadLoop data.length data [] with
    | ok d =>
      rw [hr] at ha
      simp only [Res.map, Res.ok.injEq] at ha
      subst ha
      exact ⟨rfl, rfl, by simp [rdataNames], by simp, Or.inl ⟨_, d, rfl, rfl, rfl⟩⟩
    | err e => rw [hr] at ha; simp at ha
    | panic => rw [hr] at ha; simp at ha
  by_cases h5 : ty = cnameType
  · subst h5; rw [readRData_cname] at h
    obtain ⟨a, ha, rfl⟩ := mapCase h
    obtain ⟨n, rest, e1, rfl⟩ := nameCase (f := CName.mk name) ha
    refine ⟨rfl, rfl, by simp [rdataNames]; exact readName_obtainable e1, by simp, ?_⟩
    exact Or.inr (Or.inl ⟨n, rest, e1, by simp [rdataNames], rdata_cname _⟩)
  by_cases h6 : ty = dnameType
  · subst h6; rw [readRData_dname] at h
    obtain ⟨a, ha, rfl⟩ := mapCase h
    obtain ⟨n, rest, e1, rfl⟩ := nameCase (f := DName.mk name) ha
    refine ⟨rfl, rfl, by simp [rdataNames]; exact readName_obtainable e1, by simp, ?_⟩
    exact Or.inr (Or.inl ⟨n, rest, e1, by simp [rdataNames], rdata_dname _⟩)
  by_cases h7 : ty = tlsaType
  · subst h7; rw [readRData_tlsa] at h
    obtain ⟨a, ha, rfl⟩ := mapCase h
    unfold TLSA.read at ha
    simp only [Res.bind_ok_iff, Prod.exists, Res.pure_eq, Res.ok.injEq] at ha
    obtain ⟨u, d1, e1, s, d2, e2, t, d3, e3, rfl⟩ := ha
    refine ⟨rfl, rfl, by simp [rdataNames], by simp, ?_⟩
    rw [rdata_tlsa, readU8_ok e1, readU8_ok e2, readU8_ok e3]; simp
  by_cases h8 : ty = dnskeyType
  · subst h8; rw [readRData_dnskey] at h
    obtain ⟨a, ha, rfl⟩ := mapCase h
    unfold DnsKey.read at ha
    simp only [Res.bind_ok_iff, Prod.exists, Res.pure_eq, Res.ok.injEq] at ha
    obtain ⟨u, d1, e1, s, d2, e2, t, d3, e3, rfl⟩ := ha
    refine ⟨rfl, rfl, by simp [rdataNames], by simp, ?_⟩
    rw [rdata_dnskey, readU16_rest e1, readU8_ok e2, readU8_ok e3]; simp
  by_cases h9 : ty = dsType
  · subst h9; rw [readRData_ds] at h
    obtain ⟨a, ha, rfl⟩ := mapCase h
    unfold DS.read at ha
    simp only [Res.bind_ok_iff, Prod.exists, Res.pure_eq, Res.ok.injEq] at ha
    obtain ⟨u, d1, e1, s, d2, e2, t, d3, e3, rfl⟩ := ha
    refine ⟨rfl, rfl, by simp [rdataNames], by simp, ?_⟩
    rw [rdata_ds, readU16_rest e1, readU8_ok e2, readU8_ok e3]; simp
  by_cases h10 : ty = rrsigType
  · subst h10; rw [readRData_rrsig] at h
    obtain ⟨a, ha, rfl⟩ := mapCase h
    unfold RRSig.read at ha
    simp only [Res.bind_ok_iff, Prod.exists, Res.pure_eq, Res.ok.injEq] at ha
    obtain ⟨t, d1, e1, al, d2, e2, lb, d3, e3, ot, d4, e4, ex, d5, e5, inc, d6, e6, kt, d7, e7, kn, d8, e8, rfl⟩ := ha
    refine ⟨rfl, rfl, by simp [rdataNames]; exact readName_obtainable e8, by simp, ?_⟩
    refine Or.inr (Or.inr (Or.inl ⟨_, be16 t ++ al :: lb :: (be32 ot ++ (be32 ex ++ (be32 inc ++ be16 kt))), d7, rfl, ?_, ?_, e8⟩))
    · rw [readU16_rest e1, readU8_ok e2, readU8_ok e3, readU32_rest e4, readU32_rest e5, readU32_rest e6, readU16_rest e7]
      simp
    · simp
  by_cases h11 : ty = nsecType
  · subst h11; rw [readRData_nsec] at h
    obtain ⟨a, ha, rfl⟩ := mapCase h
    unfold NSec.read at ha
    simp only [Res.bind_ok_iff, Prod.exists, Res.pure_eq, Res.ok.injEq] at ha
    obtain ⟨n, d1, e1, m, e2, rfl⟩ := ha
    refine ⟨rfl, rfl, by simp [rdataNames]; exact readName_obtainable e1, by simp, ?_⟩
    exact Or.inr (Or.inr (Or.inr (Or.inl ⟨_, rfl⟩)))
  by_cases h12 : ty = nsec3Type
  · subst h12; rw [readRData_nsec3] at h
    obtain ⟨a, ha, rfl⟩ := mapCase h
    unfold NSec3.read at ha
    simp only [Res.bind_ok_iff, Prod.exists, Res.pure_eq, Res.ok.injEq] at ha
    obtain ⟨al, d1, e1, fl, d2, e2, it, d3, e3, salt, d4, e4, hash, d5, e5, m, e6, rfl⟩ := ha
    refine ⟨rfl, rfl, by simp [rdataNames], ?_, ?_⟩
    · intro n hn
      simp only [RR.nsec3.injEq] at hn
      subst hn
      exact ⟨(readU8LenPrefixed_ok e4).2, (readU8LenPrefixed_ok e5).2⟩
    · exact Or.inr (Or.inr (Or.inr (Or.inr (Or.inl ⟨_, rfl⟩))))
  · have : readRData dbg msg ty name data = .err () := by
      simp [readRData, h1, h2, h3, h4, h5, h6, h7, h8, h9, h10, h11, h12]
    rw [this] at h; simp at h

/-- A record read from a proof stream can be written again, unless one of its names has an empty label or it is an empty TXT. -/
theorem parsed_encodable {dbg : Bool} {inp : Bytes} {rr : RR} {rest : Bytes} (h : parseRR dbg inp = .ok (rr, rest))
    (howner : NoEmptyLabel rr.name) (hinner : ∀ n ∈ rdataNames rr, NoEmptyLabel n) (htxt : ∀ t, rr = .txt t → t.data ≠ []) :
    Encodable rr := by
  obtain ⟨ttl, h⟩ := parseRR_ok h
  obtain ⟨name, ty, data, r1, h1, _, h3, h4⟩ := parseWirePacketRR_ok h
  obtain ⟨p1, p2, p3, p4, p5⟩ := readRData_props h4
  refine ⟨?_, fun n hn => (p3 n hn).hasLabels (hinner n hn), htxt, ?_, p4⟩
  · exact (p1 ▸ readName_obtainable h1).hasLabels howner
  · rcases p5 with ⟨r, d, rfl, e1, e2⟩ | ⟨n, rst, e1, e2, e3⟩ | ⟨r, pre, tl, rfl, e1, e2, e3⟩ | ⟨r, rfl⟩ | ⟨r, rfl⟩ | e
    · rw [rdata_txt_nonempty r (htxt r rfl), e2]
      rw [txtReadLoop_iff _ _ _ _ (Nat.le_refl _)] at e1
      obtain ⟨ss, f1, f2, f3⟩ := e1
      have := txtV_length_le f2
      rw [List.nil_append] at f3
      rw [f3]; rw [f1] at h3; omega
    · obtain ⟨ls, hl⟩ := (p3 n e2).hasLabels (hinner n e2)
      have := hl.wire_length_le
      rw [e3, hl.writeName]; omega
    · obtain ⟨ls, hl⟩ := (p3 r.keyName (by simp [rdataNames])).hasLabels (hinner _ (by simp [rdataNames]))
      have := readName_wire_le e3 hl
      rw [rdata_rrsig, hl.writeName]
      have hd : data.length = 18 + tl.length := by rw [e1, List.length_append, e2]
      simp only [List.length_append, List.length_cons, be16_length, be32_length]
      omega
    · obtain ⟨ls, hl⟩ := (p3 r.nextName (by simp [rdataNames])).hasLabels (hinner _ (by simp [rdataNames]))
      have := hl.wire_length_le
      have := writeNsecTypesBitmap_length_le r.types
      rw [rdata_nsec, hl.writeName, List.length_append]; omega
    · have := writeNsecTypesBitmap_length_le r.types
      obtain ⟨q1, q2⟩ := p4 r rfl
      rw [rdata_nsec3]
      simp only [List.length_append, List.length_cons, be16_length]
      omega
    · omega

end Dnssec
