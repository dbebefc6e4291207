import Verif.Proofs.Rdata

/-! # Record round trip -/

namespace Dnssec

open Spec

theorem splitDot_lower (s : Bytes) : splitDot (lower s) = (splitDot s).map lower := by
  induction s with
  | nil => rfl
  | cons b bs ih =>
    have hb : (lowerByte b = dot) ↔ (b = dot) := lowerByte_dot b
    show splitDot (lowerByte b :: lower bs) = _
    unfold splitDot
    by_cases h : b = dot
    · rw [if_pos (hb.mpr h), if_pos h, ih]; simp [lower]
    · rw [if_neg (fun e => h (hb.mp e)), if_neg h, ih]
      cases splitDot bs <;> simp [lower]

theorem lower_eq_dot (s : Bytes) : lower s = [dot] ↔ s = [dot] := by
  match s with
  | [] => simp [lower]
  | [b] => simp only [lower, List.map_cons, List.map_nil, List.cons.injEq, and_true]; exact lowerByte_dot b
  | _ :: _ :: _ => simp [lower]

theorem sum_map_lower (ps : List Bytes) : ((ps.map lower).map (fun l => l.length + 1)).sum = (ps.map (fun l => l.length + 1)).sum := by
  induction ps with
  | nil => rfl
  | cons p ps ih => rw [List.map_cons, List.map_cons, List.sum_cons, ih]; simp

theorem nameLen_eq (n : Name) : nameLen n = UInt16.ofNat (writeName n.bytes).length := by
  unfold nameLen writeName
  simp only [lower_eq_dot]
  split
  · rfl
  · rw [foldl_len, splitDot_lower]
    congr 1
    have : ∀ ps : List Bytes, ((ps.map (fun label => UInt8.ofNat label.length :: label)).flatten).length =
        (ps.map (fun l => l.length + 1)).sum := by
      intro ps; simp [List.length_flatten, List.map_map, Function.comp_def]
    rw [this, sum_map_lower]; omega

@[simp] theorem drop2_be16 (x : UInt16) (r : Bytes) : (be16 x ++ r).drop 2 = r := by simp [be16]

/-- RDATA of each type. -/
theorem rdata_a (r : A) : rdata (.a r) = r.address.1 := rfl
theorem rdata_aaaa (r : AAAA) : rdata (.aaaa r) = r.address.1 := rfl
theorem rdata_ns (r : NS) : rdata (.ns r) = writeName r.nameServer.bytes := (writeName_eq_nameWire _).symm
theorem rdata_cname (r : CName) : rdata (.cname r) = writeName r.canonicalName.bytes := (writeName_eq_nameWire _).symm
theorem rdata_dname (r : DName) : rdata (.dname r) = writeName r.delegationName.bytes := (writeName_eq_nameWire _).symm
theorem rdata_txt (r : Txt) : rdata (.txt r) = txtLenByte r.data :: txtWriteLoop r.data.length r.data := (txt_written r.data).symm
theorem rdata_txt_nonempty (r : Txt) (h : r.data ≠ []) : rdata (.txt r) = txtV r.data := by
  rw [rdata_txt, ← txtWrite_eq h]; rfl
theorem rdata_tlsa (r : TLSA) : rdata (.tlsa r) = r.certUsage :: r.selector :: r.dataTy :: r.data := rfl
theorem rdata_dnskey (r : DnsKey) : rdata (.dnskey r) = be16 r.flags ++ r.protocol :: r.alg :: r.pubkey := by simp [rdata]
theorem rdata_ds (r : DS) : rdata (.ds r) = be16 r.keyTag ++ r.alg :: r.digestType :: r.digest := by simp [rdata]
theorem rdata_rrsig (r : RRSig) : rdata (.rrsig r) = be16 r.ty ++ r.alg :: r.labels :: (be32 r.origTtl ++ (be32 r.expiration ++
    (be32 r.inception ++ (be16 r.keyTag ++ (writeName r.keyName.bytes ++ r.signature))))) := by
  simp [rdata, writeName_eq_nameWire]
theorem rdata_nsec (r : NSec) : rdata (.nsec r) = writeName r.nextName.bytes ++ writeNsecTypesBitmap r.types.bytes.1 := by
  simp [rdata, writeName_eq_nameWire, writeBitmap_windows _ r.types.bytes.2]
theorem rdata_nsec3 (r : NSec3) : rdata (.nsec3 r) = r.hashAlgo :: r.flags :: (be16 r.hashIterations ++
    UInt8.ofNat r.salt.length :: (r.salt ++ UInt8.ofNat r.nextNameHash.length :: (r.nextNameHash ++
      writeNsecTypesBitmap r.types.bytes.1))) := by
  simp [rdata, charStrings, writeBitmap_windows _ r.types.bytes.2]

/-- The length prefix is the number of RDATA bytes modulo 2^16, except for empty TXT data. -/
theorem writeData_eq (rr : RR) (h : ∀ t, rr = .txt t → t.data ≠ []) :
    rr.writeData = be16 (UInt16.ofNat (rdata rr).length) ++ rdata rr := by
  cases rr with
  | a r => rw [rdata_a, r.address.2]; rfl
  | aaaa r => rw [rdata_aaaa, r.address.2]; rfl
  | ns r => rw [rdata_ns, ← nameLen_eq]; rfl
  | txt r =>
    have hd := h r rfl
    rw [rdata_txt_nonempty r hd, txtV_length _ _ rfl, ← txtWrite_eq hd]
    simp [RR.writeData, Txt.writeData]
  | tlsa r =>
    rw [rdata_tlsa]
    simp only [RR.writeData, TLSA.writeData, List.append_assoc, List.length_cons, List.cons_append, List.nil_append]
    congr 3; omega
  | cname r => rw [rdata_cname, ← nameLen_eq]; rfl
  | dname r => rw [rdata_dname, ← nameLen_eq]; rfl
  | dnskey r =>
    rw [rdata_dnskey]
    simp only [RR.writeData, DnsKey.writeData, List.append_assoc, List.length_append, List.length_cons, be16_length,
      List.cons_append, List.nil_append]
    congr 3; omega
  | ds r =>
    rw [rdata_ds]
    simp only [RR.writeData, DS.writeData, List.append_assoc, List.length_append, List.length_cons, be16_length,
      List.cons_append, List.nil_append]
    congr 3; omega
  | rrsig r =>
    rw [rdata_rrsig]
    simp only [RR.writeData, RRSig.writeData, List.append_assoc, List.length_append, List.length_cons, be16_length,
      be32_length, List.cons_append, List.nil_append, nameLen_eq]
    congr 2
    rw [← UInt16.toNat_inj]
    simp [UInt16.toNat_add]; omega
  | nsec r =>
    rw [rdata_nsec]
    simp only [RR.writeData, NSec.writeData, List.append_assoc, List.length_append, nameLen_eq, nsecTypesBitmapLen_eq,
      UInt16.ofNat_add]
  | nsec3 r =>
    rw [rdata_nsec3]
    simp only [RR.writeData, NSec3.writeData, List.append_assoc, List.length_append, List.length_cons, be16_length,
      List.cons_append, List.nil_append, nsecTypesBitmapLen_eq]
    congr 2
    rw [← UInt16.toNat_inj]
    simp [UInt16.toNat_add]; omega

theorem readU8LenPrefixed_write {d : Bytes} (h : d.length ≤ 255) (r : Bytes) :
    readU8LenPrefixed (UInt8.ofNat d.length :: (d ++ r)) = .ok (d, r) := by
  have : (UInt8.ofNat d.length).toNat = d.length := by rw [UInt8.toNat_ofNat']; omega
  simp only [readU8LenPrefixed, this]
  rw [if_neg (by simp)]; simp

theorem readRData_a (dbg : Bool) (msg : Bytes) (name : Name) (data : Bytes) :
    readRData dbg msg aType name data = (A.read name data).map .a := rfl
theorem readRData_aaaa (dbg : Bool) (msg : Bytes) (name : Name) (data : Bytes) :
    readRData dbg msg aaaaType name data = (AAAA.read name data).map .aaaa := rfl
theorem readRData_ns (dbg : Bool) (msg : Bytes) (name : Name) (data : Bytes) :
    readRData dbg msg nsType name data = (NS.read dbg msg name data).map .ns := rfl
theorem readRData_txt (dbg : Bool) (msg : Bytes) (name : Name) (data : Bytes) :
    readRData dbg msg txtType name data = (Txt.read name data).map .txt := rfl
theorem readRData_cname (dbg : Bool) (msg : Bytes) (name : Name) (data : Bytes) :
    readRData dbg msg cnameType name data = (CName.read dbg msg name data).map .cname := rfl
theorem readRData_dname (dbg : Bool) (msg : Bytes) (name : Name) (data : Bytes) :
    readRData dbg msg dnameType name data = (DName.read dbg msg name data).map .dname := rfl
theorem readRData_tlsa (dbg : Bool) (msg : Bytes) (name : Name) (data : Bytes) :
    readRData dbg msg tlsaType name data = (TLSA.read name data).map .tlsa := rfl
theorem readRData_dnskey (dbg : Bool) (msg : Bytes) (name : Name) (data : Bytes) :
    readRData dbg msg dnskeyType name data = (DnsKey.read name data).map .dnskey := rfl
theorem readRData_ds (dbg : Bool) (msg : Bytes) (name : Name) (data : Bytes) :
    readRData dbg msg dsType name data = (DS.read name data).map .ds := rfl
theorem readRData_rrsig (dbg : Bool) (msg : Bytes) (name : Name) (data : Bytes) :
    readRData dbg msg rrsigType name data = (RRSig.read msg name data).map .rrsig := rfl
theorem readRData_nsec (dbg : Bool) (msg : Bytes) (name : Name) (data : Bytes) :
    readRData dbg msg nsecType name data = (NSec.read msg name data).map .nsec := rfl
theorem readRData_nsec3 (dbg : Bool) (msg : Bytes) (name : Name) (data : Bytes) :
    readRData dbg msg nsec3Type name data = (NSec3.read name data).map .nsec3 := rfl

/-- Reading the RDATA of an encodable record gives the record back. -/
theorem readRData_rdata (dbg : Bool) (msg : Bytes) (rr : RR) (h : Encodable rr) :
    readRData dbg msg rr.ty rr.name (rdata rr) = .ok rr := by
  cases rr with
  | a r =>
    rw [rdata_a]
    simp only [readRData, RR.ty, RR.name, if_true, A.read, r.address.2, dif_pos, Res.map]
  | aaaa r =>
    rw [rdata_aaaa]
    simp [readRData_aaaa, RR.ty, RR.name, AAAA.read, r.address.2]
  | ns r =>
    obtain ⟨ls, hl⟩ := h.inner r.nameServer (by simp [rdataNames])
    have e := readName_write msg hl []
    rw [List.append_nil] at e
    rw [rdata_ns]
    simp [readRData_ns, RR.ty, RR.name, NS.read, e, debugAssert]
  | txt r =>
    have hd := h.txtNonempty r rfl
    rw [rdata_txt_nonempty r hd]
    simp [readRData_txt, RR.ty, RR.name, Txt.read, txtRead_write hd]
  | tlsa r => rw [rdata_tlsa]; simp [readRData_tlsa, RR.ty, RR.name, TLSA.read]
  | cname r =>
    obtain ⟨ls, hl⟩ := h.inner r.canonicalName (by simp [rdataNames])
    have e := readName_write msg hl []
    rw [List.append_nil] at e
    rw [rdata_cname]
    simp [readRData_cname, RR.ty, RR.name, CName.read, e, debugAssert]
  | dname r =>
    obtain ⟨ls, hl⟩ := h.inner r.delegationName (by simp [rdataNames])
    have e := readName_write msg hl []
    rw [List.append_nil] at e
    rw [rdata_dname]
    simp [readRData_dname, RR.ty, RR.name, DName.read, e, debugAssert]
  | dnskey r => rw [rdata_dnskey]; simp [readRData_dnskey, RR.ty, RR.name, DnsKey.read]
  | ds r => rw [rdata_ds]; simp [readRData_ds, RR.ty, RR.name, DS.read]
  | rrsig r =>
    obtain ⟨ls, hl⟩ := h.inner r.keyName (by simp [rdataNames])
    have e := readName_write msg hl r.signature
    rw [rdata_rrsig]
    simp [readRData_rrsig, RR.ty, RR.name, RRSig.read, e]
  | nsec r =>
    obtain ⟨ls, hl⟩ := h.inner r.nextName (by simp [rdataNames])
    have e := readName_write msg hl (writeNsecTypesBitmap r.types.bytes.1)
    rw [rdata_nsec]
    simp [readRData_nsec, RR.ty, RR.name, NSec.read, e, readNsecTypesBitmap_write]
  | nsec3 r =>
    obtain ⟨h1, h2⟩ := h.nsec3 r rfl
    rw [rdata_nsec3]
    simp [readRData_nsec3, RR.ty, RR.name, NSec3.read, readU8LenPrefixed_write h1, readU8LenPrefixed_write h2,
      readNsecTypesBitmap_write]

theorem parse_writeRR (dbg : Bool) (msg : Bytes) (rr : RR) (h : Encodable rr) (ttl : UInt32) (rest : Bytes) :
    parseWirePacketRR dbg msg (writeRR rr ttl ++ rest) = .ok ((rr, ttl), rest) := by
  obtain ⟨ls, hl⟩ := h.owner
  have hw := writeData_eq rr h.txtNonempty
  have hf := h.fits
  have hlen : (UInt16.ofNat (rdata rr).length).toNat = (rdata rr).length := by rw [UInt16.toNat_ofNat']; omega
  unfold parseWirePacketRR writeRR
  simp only [List.append_assoc, readName_write msg hl, Res.ok_bind, readU16_be16, readU32_be32, hw]
  simp [hlen, readRData_rdata dbg msg rr h]

theorem parseRR_write (dbg : Bool) (rr : RR) (h : Encodable rr) (ttl : UInt32) (rest : Bytes) :
    parseRR dbg (writeRR rr ttl ++ rest) = .ok (rr, rest) := by
  unfold parseRR; rw [parse_writeRR dbg [] rr h]; rfl

theorem writeRR_ne_nil (rr : RR) (ttl : UInt32) : 0 < (writeRR rr ttl).length := by
  unfold writeRR; simp; omega

/-! ### Streams -/

theorem parseStreamLoop_acc (dbg : Bool) : ∀ (fuel : Nat) (inp : Bytes) (acc : List RR),
    parseRRStreamLoop dbg fuel inp acc = (parseRRStreamLoop dbg fuel inp []).map (acc ++ ·) := by
  intro fuel
  induction fuel with
  | zero => intro inp acc; simp [parseRRStreamLoop]
  | succ fuel ih =>
    intro inp acc
    unfold parseRRStreamLoop
    split
    · simp
    · split
      · rename_i rr rest _
        rw [ih rest (acc ++ [rr]), ih rest ([] ++ [rr])]
        cases parseRRStreamLoop dbg fuel rest [] <;> simp
      · rfl
      · rfl

/-- Every successful record parse consumes input. -/
theorem readU16_rest {inp : Bytes} {v : UInt16} {rest : Bytes} (h : readU16 inp = .ok (v, rest)) : inp = be16 v ++ rest := by
  match inp with
  | [] => simp [readU16] at h
  | [_] => simp [readU16] at h
  | a :: b :: r =>
    simp only [readU16, Res.ok.injEq, Prod.mk.injEq] at h
    obtain ⟨rfl, rfl⟩ := h
    rw [be16_ofBe16]; rfl

theorem readU32_rest {inp : Bytes} {v : UInt32} {rest : Bytes} (h : readU32 inp = .ok (v, rest)) : inp = be32 v ++ rest := by
  match inp with
  | [] => simp [readU32] at h
  | [_] => simp [readU32] at h
  | [_, _] => simp [readU32] at h
  | [_, _, _] => simp [readU32] at h
  | a :: b :: c :: d :: r =>
    simp only [readU32, Res.ok.injEq, Prod.mk.injEq] at h
    obtain ⟨rfl, rfl⟩ := h
    rw [be32_ofBe32]; rfl

theorem Res.bind_ok_iff {ε α β : Type} {x : Res ε α} {f : α → Res ε β} {b : β} :
    (x >>= f) = .ok b ↔ ∃ a, x = .ok a ∧ f a = .ok b := by
  cases x <;> simp

/-- The shape of any accepted record. -/
theorem parseWirePacketRR_ok {dbg : Bool} {msg inp : Bytes} {rr : RR} {ttl : UInt32} {rest : Bytes}
    (h : parseWirePacketRR dbg msg inp = .ok ((rr, ttl), rest)) :
    ∃ name ty data r1, readName msg inp = .ok (name, r1) ∧
      r1 = be16 ty ++ (be16 1 ++ (be32 ttl ++ (be16 (UInt16.ofNat data.length) ++ (data ++ rest)))) ∧ data.length ≤ 65535 ∧
      readRData dbg msg ty name data = .ok rr := by
  unfold parseWirePacketRR at h
  rw [Res.bind_ok_iff] at h
  obtain ⟨⟨name, r1⟩, h1, h⟩ := h
  simp only [] at h
  rw [Res.bind_ok_iff] at h
  obtain ⟨⟨ty, r2⟩, h2, h⟩ := h
  simp only [] at h
  rw [Res.bind_ok_iff] at h
  obtain ⟨⟨cls, r3⟩, h3, h⟩ := h
  simp only [] at h
  split at h
  · simp at h
  rename_i hcls
  rw [Res.bind_ok_iff] at h
  obtain ⟨⟨ttl', r4⟩, h4, h⟩ := h
  simp only [] at h
  rw [Res.bind_ok_iff] at h
  obtain ⟨⟨len, r5⟩, h5, h⟩ := h
  simp only [] at h
  split at h
  · simp at h
  rename_i hlen
  rw [Res.bind_ok_iff] at h
  obtain ⟨rr', h6, h⟩ := h
  simp only [Res.pure_eq, Res.ok.injEq, Prod.mk.injEq] at h
  obtain ⟨⟨rfl, rfl⟩, rfl⟩ := h
  have hcls : cls = 1 := by simpa using hcls
  subst hcls
  have hl : (r5.take len.toNat).length = len.toNat := by simp; omega
  have hlt := len.toNat_lt
  refine ⟨name, ty, r5.take len.toNat, r1, h1, ?_, by omega, h6⟩
  rw [readU16_rest h2, readU16_rest h3, readU32_rest h4, readU16_rest h5, hl, List.take_append_drop, UInt16.ofNat_toNat]

theorem parseWirePacketRR_rest_lt {dbg : Bool} {msg inp : Bytes} {rr : RR} {ttl : UInt32} {rest : Bytes}
    (h : parseWirePacketRR dbg msg inp = .ok ((rr, ttl), rest)) : rest.length < inp.length := by
  obtain ⟨name, ty, data, r1, h1, h2, _, _⟩ := parseWirePacketRR_ok h
  rw [readName_iff] at h1
  obtain ⟨t, h1, _, _⟩ := h1
  have := Decodes_rest_lt h1
  rw [h2] at this
  simp at this
  omega

theorem parseRR_ok {dbg : Bool} {inp : Bytes} {rr : RR} {rest : Bytes} (h : parseRR dbg inp = .ok (rr, rest)) :
    ∃ ttl, parseWirePacketRR dbg [] inp = .ok ((rr, ttl), rest) := by
  unfold parseRR at h
  cases hp : parseWirePacketRR dbg [] inp with
  | ok v =>
    obtain ⟨⟨a, t⟩, b⟩ := v
    rw [hp] at h
    simp only [Res.map, Res.ok.injEq, Prod.mk.injEq] at h
    obtain ⟨rfl, rfl⟩ := h
    exact ⟨t, rfl⟩
  | err e => rw [hp] at h; simp at h
  | panic => rw [hp] at h; simp at h

theorem parseRR_rest_lt {dbg : Bool} {inp : Bytes} {rr : RR} {rest : Bytes} (h : parseRR dbg inp = .ok (rr, rest)) :
    rest.length < inp.length := by
  obtain ⟨ttl, h⟩ := parseRR_ok h
  exact parseWirePacketRR_rest_lt h

theorem parseStreamLoop_fuel (dbg : Bool) : ∀ (f g : Nat) (inp : Bytes) (acc : List RR), inp.length ≤ f → inp.length ≤ g →
    parseRRStreamLoop dbg f inp acc = parseRRStreamLoop dbg g inp acc := by
  intro f
  induction f with
  | zero =>
    intro g inp acc h _
    have : inp = [] := by cases inp <;> simp_all
    subst this
    cases g <;> simp [parseRRStreamLoop]
  | succ f ih =>
    intro g inp acc h1 h2
    cases g with
    | zero =>
      have : inp = [] := by cases inp <;> simp_all
      subst this
      simp [parseRRStreamLoop]
    | succ g =>
      unfold parseRRStreamLoop
      split
      · rfl
      · split
        · rename_i rr rest hp
          have := parseRR_rest_lt hp
          exact ih g rest _ (by omega) (by omega)
        · rfl
        · rfl

theorem parseRRStream_nil (dbg : Bool) : parseRRStream dbg [] = .ok [] := rfl

/-- One step of the stream parser. -/
theorem parseRRStream_step {dbg : Bool} {inp : Bytes} {rr : RR} {rest : Bytes} (h : parseRR dbg inp = .ok (rr, rest)) :
    parseRRStream dbg inp = (parseRRStream dbg rest).map (rr :: ·) := by
  have hlt := parseRR_rest_lt h
  unfold parseRRStream
  obtain ⟨k, hk⟩ : ∃ k, inp.length = k + 1 := ⟨inp.length - 1, by omega⟩
  rw [hk, parseRRStreamLoop]
  rw [if_neg (by cases inp <;> simp_all), h]
  simp only []
  rw [parseStreamLoop_acc, parseStreamLoop_fuel dbg k rest.length rest [] (by omega) (Nat.le_refl _)]
  rfl

theorem parseRRStream_err {dbg : Bool} {inp : Bytes} (hne : inp ≠ []) (h : parseRR dbg inp = .err ()) :
    parseRRStream dbg inp = .err () := by
  unfold parseRRStream
  obtain ⟨k, hk⟩ : ∃ k, inp.length = k + 1 := ⟨inp.length - 1, by have := List.length_pos_iff.mpr hne; omega⟩
  rw [hk, parseRRStreamLoop, if_neg (by cases inp <;> simp_all), h]

theorem parseRRStream_panic {dbg : Bool} {inp : Bytes} (hne : inp ≠ []) (h : parseRR dbg inp = .panic) :
    parseRRStream dbg inp = .panic := by
  unfold parseRRStream
  obtain ⟨k, hk⟩ : ∃ k, inp.length = k + 1 := ⟨inp.length - 1, by have := List.length_pos_iff.mpr hne; omega⟩
  rw [hk, parseRRStreamLoop, if_neg (by cases inp <;> simp_all), h]

/-- Induction principle: what a successful stream parse means. -/
theorem parseRRStream_ok_cases {dbg : Bool} {inp : Bytes} {rrs : List RR} (h : parseRRStream dbg inp = .ok rrs) :
    (inp = [] ∧ rrs = []) ∨ ∃ rr rest rrs', parseRR dbg inp = .ok (rr, rest) ∧ parseRRStream dbg rest = .ok rrs' ∧
      rrs = rr :: rrs' := by
  by_cases hne : inp = []
  · subst hne; rw [parseRRStream_nil] at h; exact Or.inl ⟨rfl, by simpa using h.symm⟩
  · right
    cases hp : parseRR dbg inp with
    | err e => rw [parseRRStream_err hne hp] at h; simp at h
    | panic => rw [parseRRStream_panic hne hp] at h; simp at h
    | ok v =>
      obtain ⟨rr, rest⟩ := v
      rw [parseRRStream_step hp] at h
      cases hr : parseRRStream dbg rest with
      | ok rrs' => rw [hr] at h; exact ⟨rr, rest, rrs', rfl, hr, by simpa using h.symm⟩
      | err e => rw [hr] at h; simp at h
      | panic => rw [hr] at h; simp at h

end Dnssec
