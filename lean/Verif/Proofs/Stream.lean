import Verif.Proofs.Wire

/-! # Proof streams: locality, panics, what parsed records look like -/

namespace Dnssec

open Spec

/-! ### Without a message there are no pointers -/

theorem Decodes_nil_append' {msg : Bytes} (hm : msg = []) {k : Nat} {inp t rest : Bytes} (h : Decodes msg k inp t rest)
    (x : Bytes) : Decodes msg k (inp ++ x) t (rest ++ x) := by
  induction h with
  | stop k rest => exact Decodes.stop k (rest ++ x)
  | label k len l inp text rest h1 h2 h3 _ ih =>
    have := Decodes.label (msg := msg) k len l (inp ++ x) text (rest ++ x) h1 h2 h3 ih
    simpa [List.append_assoc] using this
  | pointer k hi lo text rest rest' _ h2 => subst hm; simp at h2

theorem Decodes_nil_append {k : Nat} {inp t rest : Bytes} (h : Decodes [] k inp t rest) (x : Bytes) :
    Decodes [] k (inp ++ x) t (rest ++ x) := Decodes_nil_append' rfl h x

theorem Decodes_nil_split' {msg : Bytes} (hm : msg = []) {k : Nat} {inp t rest : Bytes} (h : Decodes msg k inp t rest) :
    ∃ p, inp = p ++ rest ∧ Decodes msg k p t [] ∧ p.length = t.length + 1 := by
  induction h with
  | stop k rest => exact ⟨[0], rfl, Decodes.stop k [], rfl⟩
  | label k len l inp text rest h1 h2 h3 _ ih =>
    obtain ⟨p, e1, e2, e3⟩ := ih
    refine ⟨len :: (l ++ p), by rw [e1]; simp, Decodes.label k len l p text [] h1 h2 h3 e2, by simp [e3]⟩
  | pointer k hi lo text rest rest' _ h2 => subst hm; simp at h2

theorem Decodes_nil_split {k : Nat} {inp t rest : Bytes} (h : Decodes [] k inp t rest) :
    ∃ p, inp = p ++ rest ∧ Decodes [] k p t [] ∧ p.length = t.length + 1 := Decodes_nil_split' rfl h

theorem Decodes_nil_labels {msg : Bytes} (hm : msg = []) {k : Nat} (hk : k ≠ 0) {inp t rest : Bytes}
    (h : Decodes msg k inp t rest) :
    ∃ ls : List Bytes, (∀ l ∈ ls, l ≠ [] ∧ l.length < 192) ∧ inp = wire ls ++ rest ∧
      t = (ls.map (fun l => l ++ [46])).flatten := by
  induction h with
  | stop k rest => exact ⟨[], by simp, rfl, rfl⟩
  | label k len l inp text rest h1 h2 h3 _ ih =>
    obtain ⟨ls, e1, e2, e3⟩ := ih hk
    refine ⟨l :: ls, ?_, ?_, ?_⟩
    · intro x hx
      rcases List.mem_cons.mp hx with rfl | hx
      · exact ⟨h1, by omega⟩
      · exact e1 x hx
    · rw [e2]
      simp only [wire, List.map_cons, List.flatten_cons, List.cons_append, List.append_assoc]
      congr 1
      rw [← h2, UInt8.ofNat_toNat]
    · rw [e3]; simp
  | pointer k hi lo text rest rest' _ h2 => subst hm; simp at h2

theorem readName_nil_append {inp : Bytes} {n : Name} {rest : Bytes} (h : readName [] inp = .ok (n, rest)) (x : Bytes) :
    readName [] (inp ++ x) = .ok (n, rest ++ x) := by
  rw [readName_iff] at h ⊢
  obtain ⟨t, h1, h2⟩ := h
  exact ⟨t, Decodes_nil_append h1 x, h2⟩

theorem readName_nil_split {inp : Bytes} {n : Name} {rest : Bytes} (h : readName [] inp = .ok (n, rest)) :
    ∃ p, inp = p ++ rest ∧ readName [] p = .ok (n, []) := by
  rw [readName_iff] at h
  obtain ⟨t, h1, h2⟩ := h
  obtain ⟨p, e1, e2, _⟩ := Decodes_nil_split h1
  exact ⟨p, e1, by rw [readName_iff]; exact ⟨t, e2, h2⟩⟩

theorem parseWirePacketRR_of {dbg : Bool} {msg inp : Bytes} {rr : RR} {ttl : UInt32} {rest : Bytes} {name : Name} {ty : UInt16}
    {data r1 : Bytes} (h1 : readName msg inp = .ok (name, r1))
    (h2 : r1 = be16 ty ++ (be16 1 ++ (be32 ttl ++ (be16 (UInt16.ofNat data.length) ++ (data ++ rest)))))
    (h3 : data.length ≤ 65535) (h4 : readRData dbg msg ty name data = .ok rr) :
    parseWirePacketRR dbg msg inp = .ok ((rr, ttl), rest) := by
  have hlen : (UInt16.ofNat data.length).toNat = data.length := by rw [UInt16.toNat_ofNat']; omega
  unfold parseWirePacketRR
  simp only [h1, h2, Res.ok_bind, readU16_be16, readU32_be32]
  simp [hlen, h4]

theorem parseRR_append {dbg : Bool} {inp : Bytes} {rr : RR} {rest : Bytes} (h : parseRR dbg inp = .ok (rr, rest)) (x : Bytes) :
    parseRR dbg (inp ++ x) = .ok (rr, rest ++ x) := by
  obtain ⟨ttl, h⟩ := parseRR_ok h
  obtain ⟨name, ty, data, r1, h1, h2, h3, h4⟩ := parseWirePacketRR_ok h
  unfold parseRR
  rw [parseWirePacketRR_of (rest := rest ++ x) (ttl := ttl) (readName_nil_append h1 x) (by rw [h2]; simp only [List.append_assoc])
    h3 h4]
  rfl

theorem parseRR_split {dbg : Bool} {inp : Bytes} {rr : RR} {rest : Bytes} (h : parseRR dbg inp = .ok (rr, rest)) :
    ∃ p, inp = p ++ rest ∧ parseRR dbg p = .ok (rr, []) := by
  obtain ⟨ttl, h⟩ := parseRR_ok h
  obtain ⟨name, ty, data, r1, h1, h2, h3, h4⟩ := parseWirePacketRR_ok h
  obtain ⟨p, e1, e2⟩ := readName_nil_split h1
  refine ⟨p ++ (be16 ty ++ (be16 1 ++ (be32 ttl ++ (be16 (UInt16.ofNat data.length) ++ data)))), ?_, ?_⟩
  · rw [e1, h2]; simp only [List.append_assoc]
  · unfold parseRR
    have := readName_nil_append e2 (be16 ty ++ (be16 1 ++ (be32 ttl ++ (be16 (UInt16.ofNat data.length) ++ data))))
    rw [parseWirePacketRR_of (rest := []) (ttl := ttl) this (by simp only [List.append_nil, List.nil_append]) h3 h4]
    rfl

/-- A stream parses exactly when it is a concatenation of records. -/
theorem parseRRStream_iff (dbg : Bool) (inp : Bytes) (rrs : List RR) :
    parseRRStream dbg inp = .ok rrs ↔
      ∃ ps : List (Bytes × RR), inp = (ps.map Prod.fst).flatten ∧ rrs = ps.map Prod.snd ∧
        ∀ p ∈ ps, parseRR dbg p.1 = .ok (p.2, []) := by
  constructor
  · intro h
    induction rrs generalizing inp with
    | nil =>
      rcases parseRRStream_ok_cases h with ⟨h1, _⟩ | ⟨_, _, _, _, _, h⟩
      · exact ⟨[], by simp [h1], rfl, by simp⟩
      · simp at h
    | cons rr rrs ih =>
      rcases parseRRStream_ok_cases h with ⟨_, h1⟩ | ⟨rr', rest, rrs', h1, h2, h3⟩
      · simp at h1
      · simp only [List.cons.injEq] at h3
        obtain ⟨rfl, rfl⟩ := h3
        obtain ⟨ps, e1, e2, e3⟩ := ih rest h2
        obtain ⟨p, e4, e5⟩ := parseRR_split h1
        refine ⟨(p, rr) :: ps, by simp [e4, e1], by simp [e2], ?_⟩
        intro q hq
        rcases List.mem_cons.mp hq with rfl | hq
        · exact e5
        · exact e3 q hq
  · rintro ⟨ps, rfl, rfl, h⟩
    induction ps with
    | nil => rfl
    | cons p ps ih =>
      have h1 := parseRR_append (h p (by simp)) ((ps.map Prod.fst).flatten)
      have h2 := ih (fun q hq => h q (by simp [hq]))
      rw [List.map_cons, List.flatten_cons, parseRRStream_step h1]
      simp [h2]

/-! ### Panics -/

theorem BitmapOverrun_contains {inp : Bytes} (h : BitmapOverrun inp) :
    ∃ pre block len w post, inp = pre ++ block :: len :: (w ++ post) ∧ w.length = len.toNat ∧
      8192 < block.toNat * 32 + len.toNat := by
  induction h with
  | here block len rest h1 h2 =>
    exact ⟨[], block, len, rest.take len.toNat, rest.drop len.toNat, by simp, by simp; omega, h2⟩
  | later block len w rest h1 h2 _ ih =>
    obtain ⟨pre, b, l, w', post, e1, e2, e3⟩ := ih
    exact ⟨block :: len :: (w ++ pre), b, l, w', post, by rw [e1]; simp, e2, e3⟩

theorem Res.map_panic_iff {ε α β : Type} {f : α → β} {x : Res ε α} : x.map f = .panic ↔ x = .panic := by
  cases x <;> simp

theorem Res.bind_panic_iff {ε α β : Type} {x : Res ε α} {f : α → Res ε β} :
    (x >>= f) = .panic ↔ x = .panic ∨ ∃ a, x = .ok a ∧ f a = .panic := by
  cases x <;> simp

theorem readU8_no_panic (i : Bytes) : readU8 i ≠ .panic := by cases i <;> simp [readU8]
theorem readU16_no_panic (i : Bytes) : readU16 i ≠ .panic := by unfold readU16; split <;> simp
theorem readU32_no_panic (i : Bytes) : readU32 i ≠ .panic := by unfold readU32; split <;> simp
theorem readU8LenPrefixed_no_panic (i : Bytes) : readU8LenPrefixed i ≠ .panic := by
  unfold readU8LenPrefixed; split
  · simp
  · split <;> simp

theorem debugAssert_panic (dbg : Bool) (l : Bytes) : debugAssert dbg l.isEmpty = .panic ↔ dbg = true ∧ l ≠ [] := by
  unfold debugAssert
  cases dbg <;> cases l <;> simp

theorem nameRead_panic_iff {α : Type} (dbg : Bool) (msg data : Bytes) (f : Name → α) :
    ((do let (n, data) ← readName msg data; debugAssert dbg data.isEmpty; pure (f n)) : Res Unit α) = .panic ↔
      dbg = true ∧ ∃ n rest, readName msg data = .ok (n, rest) ∧ rest ≠ [] := by
  rw [Res.bind_panic_iff]
  constructor
  · rintro (h | ⟨⟨n, rest⟩, h1, h2⟩)
    · exact absurd h (readName_no_panic _ _)
    · simp only [] at h2
      rw [Res.bind_panic_iff, debugAssert_panic] at h2
      rcases h2 with ⟨h2, h3⟩ | ⟨_, _, h2⟩
      · exact ⟨h2, n, rest, h1, h3⟩
      · simp at h2
  · rintro ⟨h1, n, rest, h2, h3⟩
    refine Or.inr ⟨(n, rest), h2, ?_⟩
    simp only []
    rw [Res.bind_panic_iff, debugAssert_panic]
    exact Or.inl ⟨h1, h3⟩

theorem readU8LenPrefixed_ok {inp : Bytes} {d rest : Bytes} (h : readU8LenPrefixed inp = .ok (d, rest)) :
    inp = UInt8.ofNat d.length :: (d ++ rest) ∧ d.length ≤ 255 := by
  unfold readU8LenPrefixed at h
  split at h
  · simp at h
  · rename_i len inp'
    split at h
    · simp at h
    · simp only [Res.ok.injEq, Prod.mk.injEq] at h
      obtain ⟨rfl, rfl⟩ := h
      have hlt := len.toNat_lt
      have hl : (inp'.take len.toNat).length = len.toNat := by simp; omega
      rw [hl, UInt8.ofNat_toNat, List.take_append_drop]
      exact ⟨rfl, by omega⟩

theorem readU8_ok {inp : Bytes} {b : UInt8} {rest : Bytes} (h : readU8 inp = .ok (b, rest)) : inp = b :: rest := by
  cases inp with
  | nil => simp [readU8] at h
  | cons a as => simp only [readU8, Res.ok.injEq, Prod.mk.injEq] at h; rw [h.1, h.2]

theorem NSec3.read_panic_iff (name : Name) (data : Bytes) (dbg : Bool) (msg : Bytes) :
    NSec3.read name data = .panic ↔ RDataPanics dbg msg 50 data := by
  unfold NSec3.read
  constructor
  · intro h
    rw [Res.bind_panic_iff] at h
    rcases h with h | ⟨⟨alg, d1⟩, h1, h⟩
    · exact absurd h (readU8_no_panic _)
    simp only [] at h
    rw [Res.bind_panic_iff] at h
    rcases h with h | ⟨⟨fl, d2⟩, h2, h⟩
    · exact absurd h (readU8_no_panic _)
    simp only [] at h
    rw [Res.bind_panic_iff] at h
    rcases h with h | ⟨⟨it, d3⟩, h3, h⟩
    · exact absurd h (readU16_no_panic _)
    simp only [] at h
    rw [Res.bind_panic_iff] at h
    rcases h with h | ⟨⟨salt, d4⟩, h4, h⟩
    · exact absurd h (readU8LenPrefixed_no_panic _)
    simp only [] at h
    rw [Res.bind_panic_iff] at h
    rcases h with h | ⟨⟨hash, d5⟩, h5, h⟩
    · exact absurd h (readU8LenPrefixed_no_panic _)
    simp only [] at h
    rw [Res.bind_panic_iff] at h
    rcases h with h | ⟨_, _, h⟩
    · rw [readNsecTypesBitmap_panic] at h
      obtain ⟨e4, l4⟩ := readU8LenPrefixed_ok h4
      obtain ⟨e5, l5⟩ := readU8LenPrefixed_ok h5
      rw [readU8_ok h1, readU8_ok h2, readU16_rest h3, e4, e5]
      exact RDataPanics.nsec3 alg fl _ _ salt hash d5 l4 l5 h
    · simp at h
  · intro h
    generalize ht : (50 : UInt16) = ty at h
    cases h with
    | nsec => exact absurd ht (by decide)
    | nsec3 alg fl i1 i2 salt hash bm l1 l2 h =>
      have hb := (readNsecTypesBitmap_panic bm).mpr h
      simp [readU16, readU8LenPrefixed_write l1, readU8LenPrefixed_write l2, hb]
    | trailing _ _ rest n _ hty _ _ =>
      subst ht
      rcases hty with e | e | e <;> exact absurd e (by decide)

theorem readRData_panic_iff (dbg : Bool) (msg : Bytes) (ty : UInt16) (name : Name) (data : Bytes) :
    readRData dbg msg ty name data = .panic ↔ RDataPanics dbg msg ty data := by
  have trail : ∀ (t : UInt16), (t = 2 ∨ t = 5 ∨ t = 39) → ((dbg = true ∧ ∃ n rest, readName msg data = .ok (n, rest) ∧ rest ≠ []) ↔
      RDataPanics dbg msg t data) := by
    intro t ht
    constructor
    · rintro ⟨h1, n, rest, h2, h3⟩; exact RDataPanics.trailing t data rest n h1 ht (readName_reads.mp h2) h3
    · intro h
      cases h with
      | nsec => rcases ht with e | e | e <;> exact absurd e (by decide)
      | nsec3 => rcases ht with e | e | e <;> exact absurd e (by decide)
      | trailing _ _ rest n h1 _ h2 h3 => exact ⟨h1, n, rest, readName_reads.mpr h2, h3⟩
  have none : ∀ (t : UInt16), t ≠ 47 → t ≠ 50 → t ≠ 2 → t ≠ 5 → t ≠ 39 → ¬ RDataPanics dbg msg t data := by
    intro t h1 h2 h3 h4 h5 h
    cases h with
    | nsec => exact h1 rfl
    | nsec3 => exact h2 rfl
    | trailing _ _ _ _ _ ht => rcases ht with e | e | e <;> first | exact h3 e | exact h4 e | exact h5 e
  by_cases h1 : ty = aType
  · subst h1; rw [readRData_a, Res.map_panic_iff]
    have : A.read name data ≠ .panic := by unfold A.read; split <;> simp
    exact ⟨fun h => absurd h this, fun h => absurd h (none _ (by decide) (by decide) (by decide) (by decide) (by decide))⟩
  by_cases h2 : ty = aaaaType
  · subst h2; rw [readRData_aaaa, Res.map_panic_iff]
    have : AAAA.read name data ≠ .panic := by unfold AAAA.read; split <;> simp
    exact ⟨fun h => absurd h this, fun h => absurd h (none _ (by decide) (by decide) (by decide) (by decide) (by decide))⟩
  by_cases h3 : ty = nsType
  · subst h3; rw [readRData_ns, Res.map_panic_iff, ← trail nsType (by decide)]
    exact nameRead_panic_iff dbg msg data (NS.mk name)
  by_cases h4 : ty = txtType
  · subst h4; rw [readRData_txt, Res.map_panic_iff]
    have : Txt.read name data ≠ .panic := by
      unfold Txt.read; rw [Ne, Res.map_panic_iff]; exact txtReadLoop_no_panic _ _ _
    exact ⟨fun h => absurd h this, fun h => absurd h (none _ (by decide) (by decide) (by decide) (by decide) (by decide))⟩
  by_cases h5 : ty = cnameType
  · subst h5; rw [readRData_cname, Res.map_panic_iff, ← trail cnameType (by decide)]
    exact nameRead_panic_iff dbg msg data (CName.mk name)
  by_cases h6 : ty = dnameType
  · subst h6; rw [readRData_dname, Res.map_panic_iff, ← trail dnameType (by decide)]
    exact nameRead_panic_iff dbg msg data (DName.mk name)
  by_cases h7 : ty = tlsaType
  · subst h7; rw [readRData_tlsa, Res.map_panic_iff]
    have : TLSA.read name data ≠ .panic := by
      unfold TLSA.read; simp [Res.bind_panic_iff, readU8_no_panic]
    exact ⟨fun h => absurd h this, fun h => absurd h (none _ (by decide) (by decide) (by decide) (by decide) (by decide))⟩
  by_cases h8 : ty = dnskeyType
  · subst h8; rw [readRData_dnskey, Res.map_panic_iff]
    have : DnsKey.read name data ≠ .panic := by
      unfold DnsKey.read; simp [Res.bind_panic_iff, readU8_no_panic, readU16_no_panic]
    exact ⟨fun h => absurd h this, fun h => absurd h (none _ (by decide) (by decide) (by decide) (by decide) (by decide))⟩
  by_cases h9 : ty = dsType
  · subst h9; rw [readRData_ds, Res.map_panic_iff]
    have : DS.read name data ≠ .panic := by
      unfold DS.read; simp [Res.bind_panic_iff, readU8_no_panic, readU16_no_panic]
    exact ⟨fun h => absurd h this, fun h => absurd h (none _ (by decide) (by decide) (by decide) (by decide) (by decide))⟩
  by_cases h10 : ty = rrsigType
  · subst h10; rw [readRData_rrsig, Res.map_panic_iff]
    have : RRSig.read msg name data ≠ .panic := by
      unfold RRSig.read; simp [Res.bind_panic_iff, readU8_no_panic, readU16_no_panic, readU32_no_panic, readName_no_panic]
    exact ⟨fun h => absurd h this, fun h => absurd h (none _ (by decide) (by decide) (by decide) (by decide) (by decide))⟩
  by_cases h11 : ty = nsecType
  · subst h11; rw [readRData_nsec, Res.map_panic_iff]
    unfold NSec.read
    rw [Res.bind_panic_iff]
    constructor
    · rintro (h | ⟨⟨n, bm⟩, h1, h⟩)
      · exact absurd h (readName_no_panic _ _)
      · simp only [] at h
        rw [Res.bind_panic_iff] at h
        rcases h with h | ⟨_, _, h⟩
        · exact RDataPanics.nsec data bm n (readName_reads.mp h1) ((readNsecTypesBitmap_panic bm).mp h)
        · simp at h
    · intro h
      generalize ht : nsecType = ty at h
      cases h with
      | nsec _ bm n h1 h2 =>
        refine Or.inr ⟨(n, bm), readName_reads.mpr h1, ?_⟩
        simp [(readNsecTypesBitmap_panic bm).mpr h2]
      | nsec3 => exact absurd ht (by decide)
      | trailing _ _ rest n _ hty _ _ => subst ht; rcases hty with e | e | e <;> exact absurd e (by decide)
  by_cases h12 : ty = nsec3Type
  · subst h12; rw [readRData_nsec3, Res.map_panic_iff]; exact NSec3.read_panic_iff name data dbg msg
  · have : readRData dbg msg ty name data = .err () := by
      simp [readRData, h1, h2, h3, h4, h5, h6, h7, h8, h9, h10, h11, h12]
    rw [this]
    have hn := none ty h11 h12 h3 h5 h6
    simp [hn]

/-- Exactly when parsing one record panics. -/
theorem parseWirePacketRR_panic_iff (dbg : Bool) (msg inp : Bytes) :
    parseWirePacketRR dbg msg inp = .panic ↔
      ∃ name ty ttl data r1 rest, readName msg inp = .ok (name, r1) ∧
        r1 = be16 ty ++ (be16 1 ++ (be32 ttl ++ (be16 (UInt16.ofNat data.length) ++ (data ++ rest)))) ∧ data.length ≤ 65535 ∧
        RDataPanics dbg msg ty data := by
  constructor
  · intro h
    unfold parseWirePacketRR at h
    rw [Res.bind_panic_iff] at h
    rcases h with h | ⟨⟨name, r1⟩, h1, h⟩
    · exact absurd h (readName_no_panic _ _)
    simp only [] at h
    rw [Res.bind_panic_iff] at h
    rcases h with h | ⟨⟨ty, r2⟩, h2, h⟩
    · exact absurd h (readU16_no_panic _)
    simp only [] at h
    rw [Res.bind_panic_iff] at h
    rcases h with h | ⟨⟨cls, r3⟩, h3, h⟩
    · exact absurd h (readU16_no_panic _)
    simp only [] at h
    split at h
    · simp at h
    rename_i hcls
    rw [Res.bind_panic_iff] at h
    rcases h with h | ⟨⟨ttl, r4⟩, h4, h⟩
    · exact absurd h (readU32_no_panic _)
    simp only [] at h
    rw [Res.bind_panic_iff] at h
    rcases h with h | ⟨⟨len, r5⟩, h5, h⟩
    · exact absurd h (readU16_no_panic _)
    simp only [] at h
    split at h
    · simp at h
    rename_i hlen
    rw [Res.bind_panic_iff] at h
    rcases h with h | ⟨_, _, h⟩
    · rw [readRData_panic_iff] at h
      have hcls : cls = 1 := by simpa using hcls
      subst hcls
      have hl : (r5.take len.toNat).length = len.toNat := by simp; omega
      have hlt := len.toNat_lt
      refine ⟨name, ty, ttl, r5.take len.toNat, r1, r5.drop len.toNat, h1, ?_, by omega, h⟩
      rw [readU16_rest h2, readU16_rest h3, readU32_rest h4, readU16_rest h5, hl, List.take_append_drop, UInt16.ofNat_toNat]
    · simp at h
  · rintro ⟨name, ty, ttl, data, r1, rest, h1, h2, h3, h4⟩
    have hlen : (UInt16.ofNat data.length).toNat = data.length := by rw [UInt16.toNat_ofNat']; omega
    unfold parseWirePacketRR
    simp only [h1, h2, Res.ok_bind, readU16_be16, readU32_be32]
    simp [hlen, (readRData_panic_iff dbg msg ty name data).mpr h4]

/-- The remaining input of a name read is a suffix of the input. -/
theorem Decodes_suffix {msg : Bytes} {k : Nat} {inp t rest : Bytes} (h : Decodes msg k inp t rest) : ∃ p, inp = p ++ rest := by
  induction h with
  | stop k rest => exact ⟨[0], rfl⟩
  | label k len l inp text rest _ _ _ _ ih =>
    obtain ⟨p, e⟩ := ih; exact ⟨len :: (l ++ p), by rw [e]; simp⟩
  | pointer k hi lo text rest rest' _ _ _ _ => exact ⟨[hi, lo], rfl⟩

theorem readName_suffix {msg inp : Bytes} {n : Name} {rest : Bytes} (h : readName msg inp = .ok (n, rest)) :
    ∃ p, inp = p ++ rest := by
  rw [readName_iff] at h; obtain ⟨t, h, _⟩ := h; exact Decodes_suffix h

theorem RDataPanics_release {msg : Bytes} {ty : UInt16} {data : Bytes} (h : RDataPanics false msg ty data) :
    ∃ pre bm, data = pre ++ bm ∧ BitmapOverrun bm := by
  cases h with
  | nsec _ bm n h1 h2 => obtain ⟨p, e⟩ := readName_suffix (readName_reads.mpr h1); exact ⟨p, bm, e, h2⟩
  | nsec3 alg fl i1 i2 salt hash bm _ _ h =>
    exact ⟨alg :: fl :: i1 :: i2 :: UInt8.ofNat salt.length :: (salt ++ UInt8.ofNat hash.length :: hash), bm, by simp, h⟩
  | trailing _ _ _ _ h => simp at h

theorem parseWirePacketRR_panic_contains {msg inp : Bytes} (h : parseWirePacketRR false msg inp = .panic) :
    ∃ pre block len w post, inp = pre ++ block :: len :: (w ++ post) ∧ w.length = len.toNat ∧
      8192 < block.toNat * 32 + len.toNat := by
  rw [parseWirePacketRR_panic_iff] at h
  obtain ⟨name, ty, ttl, data, r1, rest, h1, h2, _, h4⟩ := h
  obtain ⟨p, e⟩ := readName_suffix h1
  obtain ⟨pre, bm, e2, ho⟩ := RDataPanics_release h4
  obtain ⟨pre', block, len, w, post, e3, e4, e5⟩ := BitmapOverrun_contains ho
  refine ⟨p ++ (be16 ty ++ (be16 1 ++ (be32 ttl ++ (be16 (UInt16.ofNat data.length) ++ (pre ++ pre'))))), block, len, w,
    post ++ rest, ?_, e4, e5⟩
  rw [e, h2]
  have : data ++ rest = pre ++ (pre' ++ block :: len :: (w ++ (post ++ rest))) := by rw [e2, e3]; simp
  rw [this]; simp only [List.append_assoc]

theorem parseRRStream_panic_iff (dbg : Bool) (inp : Bytes) :
    parseRRStream dbg inp = .panic ↔
      ∃ a b rrs, inp = a ++ b ∧ b ≠ [] ∧ parseRRStream dbg a = .ok rrs ∧ parseWirePacketRR dbg [] b = .panic := by
  constructor
  · intro h
    have key : ∀ (n : Nat) (inp : Bytes), inp.length ≤ n → parseRRStream dbg inp = .panic →
        ∃ a b rrs, inp = a ++ b ∧ b ≠ [] ∧ parseRRStream dbg a = .ok rrs ∧ parseWirePacketRR dbg [] b = .panic := by
      intro n
      induction n with
      | zero =>
        intro inp hl h
        have : inp = [] := by cases inp <;> simp_all
        subst this; rw [parseRRStream_nil] at h; simp at h
      | succ n ih =>
        intro inp hl h
        by_cases hne : inp = []
        · subst hne; rw [parseRRStream_nil] at h; simp at h
        · cases hp : parseRR dbg inp with
          | err e => rw [parseRRStream_err hne hp] at h; simp at h
          | panic =>
            refine ⟨[], inp, [], rfl, hne, rfl, ?_⟩
            unfold parseRR at hp; rwa [Res.map_panic_iff] at hp
          | ok v =>
            obtain ⟨rr, rest⟩ := v
            have hlt := parseRR_rest_lt hp
            rw [parseRRStream_step hp, Res.map_panic_iff] at h
            obtain ⟨a, b, rrs, e1, e2, e3, e4⟩ := ih rest (by omega) h
            obtain ⟨p, e5, e6⟩ := parseRR_split hp
            refine ⟨p ++ a, b, rr :: rrs, by rw [e5, e1, List.append_assoc], e2, ?_, e4⟩
            have := parseRR_append e6 a
            rw [parseRRStream_step this]; simp [e3]
    exact key inp.length inp (Nat.le_refl _) h
  · rintro ⟨a, b, rrs, rfl, hb, h1, h2⟩
    rw [parseRRStream_iff] at h1
    obtain ⟨ps, rfl, rfl, h⟩ := h1
    induction ps with
    | nil =>
      exact parseRRStream_panic hb (by unfold parseRR; rw [List.map_nil, List.flatten_nil, List.nil_append, h2]; rfl)
    | cons p ps ih =>
      have e1 := parseRR_append (h p (by simp)) ((ps.map Prod.fst).flatten ++ b)
      have e2 := ih (fun q hq => h q (by simp [hq]))
      rw [List.map_cons, List.flatten_cons, List.append_assoc, parseRRStream_step e1]
      rw [List.nil_append, e2]; rfl

end Dnssec
