import Verif.Proofs.Parsed
import Verif.Proofs.BitmapMeaning

/-! # The parser reads exactly the specified formats -/

namespace Dnssec

open Spec

/-! ### Bitmaps -/

theorem windows_cons (w : Nat × Bytes) (ws : List (Nat × Bytes)) :
    windows (w :: ws) = UInt8.ofNat w.1 :: UInt8.ofNat w.2.length :: (w.2 ++ windows ws) := by simp [windows]

theorem copyInto_octet (m : FixedBytes 8192) (off : Nat) (src : Bytes) (h : off + src.length ≤ 8192) (p : Nat) :
    ((copyInto m off src h).1[p]?).getD 0 = if off ≤ p then (src[p - off]?).getD ((m.1[p]?).getD 0) else (m.1[p]?).getD 0 := by
  rw [copyInto_get]
  by_cases h1 : off ≤ p
  · rw [if_pos h1]
    by_cases h2 : p < off + src.length
    · rw [if_pos ⟨h1, h2⟩, List.getElem?_eq_getElem (by omega)]; rfl
    · rw [if_neg (by omega), List.getElem?_eq_none (l := src) (by omega)]; rfl
  · rw [if_neg h1, if_neg (by omega)]

theorem readBitmapLoop_iff (fuel : Nat) : ∀ (inp : Bytes) (res res' : FixedBytes 8192), inp.length ≤ fuel →
    (readBitmapLoop fuel inp res = .ok res' ↔
      ∃ ws, inp = windows ws ∧ (∀ w ∈ ws, w.1 < 256 ∧ w.2.length < 256 ∧ 32 * w.1 + w.2.length ≤ 8192) ∧
        ∀ p, p < 8192 → (res'.1[p]?).getD 0 =
          ws.foldl (fun b w => if 32 * w.1 ≤ p then (w.2[p - 32 * w.1]?).getD b else b) ((res.1[p]?).getD 0)) := by
  have eqv : ∀ (a b : FixedBytes 8192), (∀ p, p < 8192 → (a.1[p]?).getD 0 = (b.1[p]?).getD 0) → a = b := by
    intro a b h
    have ha := a.2
    have hb := b.2
    apply Subtype.ext
    apply List.ext_getElem (by omega)
    intro i h1 h2
    have := h i (by omega)
    rwa [List.getElem?_eq_getElem h1, List.getElem?_eq_getElem h2] at this
  have hnil : ∀ (res res' : FixedBytes 8192), ((.ok res : Res Unit (FixedBytes 8192)) = .ok res' ↔
      ∃ ws, [] = windows ws ∧ (∀ w ∈ ws, w.1 < 256 ∧ w.2.length < 256 ∧ 32 * w.1 + w.2.length ≤ 8192) ∧
        ∀ p, p < 8192 → (res'.1[p]?).getD 0 =
          ws.foldl (fun b w => if 32 * w.1 ≤ p then (w.2[p - 32 * w.1]?).getD b else b) ((res.1[p]?).getD 0)) := by
    intro res res'
    constructor
    · intro h
      simp only [Res.ok.injEq] at h
      subst h
      exact ⟨[], rfl, by simp, fun _ _ => rfl⟩
    · rintro ⟨ws, h1, _, h3⟩
      cases ws with
      | nil => rw [eqv res' res h3]
      | cons w ws => rw [windows_cons] at h1; simp at h1
  induction fuel with
  | zero =>
    intro inp res res' h
    have : inp = [] := by cases inp <;> simp_all
    subst this
    exact hnil res res'
  | succ fuel ih =>
    intro inp res res' h
    match inp with
    | [] => exact hnil res res'
    | [x] =>
      simp only [readBitmapLoop, reduceCtorEq, false_iff]
      rintro ⟨ws, h1, _⟩
      cases ws with
      | nil => simp [windows] at h1
      | cons w ws => rw [windows_cons] at h1; simp at h1
    | block :: len :: rest =>
      simp only [readBitmapLoop]
      split
      · rename_i hlt
        simp only [reduceCtorEq, false_iff]
        rintro ⟨ws, h1, h2, _⟩
        cases ws with
        | nil => simp [windows] at h1
        | cons w ws =>
          rw [windows_cons] at h1
          simp only [List.cons.injEq] at h1
          obtain ⟨_, e2, e3⟩ := h1
          have := (h2 w (by simp)).2.1
          rw [e2, e3, UInt8.toNat_ofNat', List.length_append] at hlt
          omega
      · rename_i hge
        have htl : (rest.take len.toNat).length = len.toNat := by simp; omega
        simp only [htl]
        split
        · rename_i hle
          rw [ih _ _ _ (by simp at h ⊢; omega)]
          constructor
          · rintro ⟨ws, h1, h2, h3⟩
            refine ⟨(block.toNat, rest.take len.toNat) :: ws, ?_, ?_, ?_⟩
            · rw [windows_cons, htl, ← h1, List.take_append_drop]; simp
            · intro w hw
              rcases List.mem_cons.mp hw with rfl | hw
              · have := block.toNat_lt
                have := len.toNat_lt
                rw [htl]; exact ⟨by omega, by omega, by omega⟩
              · exact h2 w hw
            · intro p hp
              rw [h3 p hp, List.foldl_cons, copyInto_octet]
              simp only [Nat.mul_comm 32]
          · rintro ⟨ws, h1, h2, h3⟩
            cases ws with
            | nil => simp [windows] at h1
            | cons w ws =>
              rw [windows_cons] at h1
              simp only [List.cons.injEq] at h1
              obtain ⟨e1, e2, e3⟩ := h1
              obtain ⟨l1, l2, l3⟩ := h2 w (by simp)
              have hb : block.toNat = w.1 := by rw [e1, UInt8.toNat_ofNat']; omega
              have hl : len.toNat = w.2.length := by rw [e2, UInt8.toNat_ofNat']; omega
              have ht : rest.take len.toNat = w.2 := by rw [e3, hl, List.take_left]
              refine ⟨ws, by rw [e3, hl, List.drop_left], fun x hx => h2 x (by simp [hx]), ?_⟩
              intro p hp
              rw [h3 p hp, List.foldl_cons, copyInto_octet]
              simp only [hb, ht, Nat.mul_comm 32]
        · rename_i hgt
          simp only [reduceCtorEq, false_iff]
          rintro ⟨ws, h1, h2, _⟩
          cases ws with
          | nil => simp [windows] at h1
          | cons w ws =>
            rw [windows_cons] at h1
            simp only [List.cons.injEq] at h1
            obtain ⟨e1, e2, e3⟩ := h1
            obtain ⟨l1, l2, l3⟩ := h2 w (by simp)
            rw [e1, e2, UInt8.toNat_ofNat', UInt8.toNat_ofNat'] at hgt
            omega

theorem readNsecTypesBitmap_iff (data : Bytes) (m : NSecTypeMask) : readNsecTypesBitmap data = .ok m ↔ ReadsBitmap data m := by
  have hm := m.bytes.2
  have key := readBitmapLoop_iff data.length data NSecTypeMask.new.bytes m.bytes (Nat.le_refl _)
  have h0 : ∀ p : Nat, ((NSecTypeMask.new.bytes).1[p]?).getD 0 = 0 := by
    intro p
    simp only [NSecTypeMask.new, List.getElem?_replicate]
    split <;> rfl
  simp only [h0] at key
  unfold readNsecTypesBitmap ReadsBitmap
  have e1 : (readBitmapLoop data.length data NSecTypeMask.new.bytes).map NSecTypeMask.mk = .ok m ↔
      readBitmapLoop data.length data NSecTypeMask.new.bytes = .ok m.bytes := by
    cases readBitmapLoop data.length data NSecTypeMask.new.bytes with
    | ok v =>
      simp only [Res.map, Res.ok.injEq]
      exact ⟨fun h => by rw [← h], fun h => by rw [h]⟩
    | err e => simp
    | panic => simp
  rw [e1, key]
  apply exists_congr
  intro ws
  apply and_congr_right
  intro _
  apply and_congr_right
  intro _
  constructor
  · intro h
    apply List.ext_getElem (by simp [hm])
    intro i h1 h2
    have := h i (by omega)
    rw [List.getElem?_eq_getElem h1] at this
    simpa [bitmapOctet] using this
  · intro h p hp
    rw [h, List.getElem?_eq_getElem (by simpa using hp)]
    simp [bitmapOctet]

/-! ### RDATA -/

theorem nameRead_ok_iff {α : Type} (dbg : Bool) (msg data : Bytes) (f : Name → α) (v : α) :
    ((do let (n, data) ← readName msg data; debugAssert dbg data.isEmpty; pure (f n)) : Res Unit α) = .ok v ↔
      ∃ n rest, ReadsName msg data n rest ∧ (dbg = true → rest = []) ∧ v = f n := by
  rw [Res.bind_ok_iff]
  constructor
  · rintro ⟨⟨n, rest⟩, h1, h⟩
    simp only [] at h
    rw [Res.bind_ok_iff] at h
    obtain ⟨_, h2, h⟩ := h
    simp only [Res.pure_eq, Res.ok.injEq] at h
    refine ⟨n, rest, readName_reads.mp h1, ?_, h.symm⟩
    intro hd
    subst hd
    unfold debugAssert at h2
    cases rest <;> simp_all
  · rintro ⟨n, rest, h1, h2, rfl⟩
    refine ⟨(n, rest), readName_reads.mpr h1, ?_⟩
    simp only []
    rw [Res.bind_ok_iff]
    refine ⟨(), ?_, rfl⟩
    unfold debugAssert
    cases dbg with
    | false => rfl
    | true => rw [h2 rfl]; rfl

theorem map_ok_iff {ε α β : Type} {x : Res ε α} {f : α → β} {v : β} : x.map f = .ok v ↔ ∃ a, x = .ok a ∧ v = f a := by
  cases x <;> simp [eq_comm]

theorem u16_of_toNat {t u : UInt16} {k : Nat} (h : t.toNat = k) (hu : u.toNat = k) : t = u := by
  rw [← UInt16.toNat_inj]; omega

theorem txtRead_iff (name : Name) (data : Bytes) (t : Txt) :
    Txt.read name data = .ok t ↔
      t.name = name ∧ ∃ ss, data = charStrings ss ∧ (∀ s ∈ ss, s.length ≤ 255) ∧ t.data = ss.flatten := by
  unfold Txt.read
  rw [map_ok_iff]
  constructor
  · rintro ⟨d, h, rfl⟩
    rw [txtReadLoop_iff _ _ _ _ (Nat.le_refl _)] at h
    exact ⟨rfl, by simpa using h⟩
  · rintro ⟨rfl, ss, h1, h2, h3⟩
    exact ⟨t.data, (txtReadLoop_iff data.length data [] t.data (Nat.le_refl _)).mpr ⟨ss, h1, h2, by simpa using h3⟩, rfl⟩

theorem readRData_reads {dbg : Bool} {msg : Bytes} {ty : UInt16} {name : Name} {data : Bytes} {rr : RR}
    (h : readRData dbg msg ty name data = .ok rr) : ReadsRData dbg msg name ty.toNat data rr := by
  by_cases h1 : ty = aType
  · subst h1; rw [readRData_a] at h
    obtain ⟨a, ha, rfl⟩ := map_ok_iff.mp h
    unfold A.read at ha
    split at ha
    · simp only [Res.ok.injEq] at ha; subst ha
      exact .a ⟨data, by assumption⟩
    · simp at ha
  by_cases h2 : ty = aaaaType
  · subst h2; rw [readRData_aaaa] at h
    obtain ⟨a, ha, rfl⟩ := map_ok_iff.mp h
    unfold AAAA.read at ha
    split at ha
    · simp only [Res.ok.injEq] at ha; subst ha
      exact .aaaa ⟨data, by assumption⟩
    · simp at ha
  by_cases h3 : ty = nsType
  · subst h3; rw [readRData_ns] at h
    obtain ⟨a, ha, rfl⟩ := map_ok_iff.mp h
    obtain ⟨n, rest, e1, e2, rfl⟩ := (nameRead_ok_iff dbg msg data (NS.mk name) a).mp ha
    exact .ns data rest n e1 e2
  by_cases h4 : ty = txtType
  · subst h4; rw [readRData_txt] at h
    obtain ⟨a, ha, rfl⟩ := map_ok_iff.mp h
    obtain ⟨rfl, ss, rfl, e2, e3⟩ := (txtRead_iff name data a).mp ha
    have := ReadsRData.txt (dbg := dbg) (msg := msg) (owner := a.name) ss e2
    rw [← e3] at this
    exact this
  by_cases h5 : ty = cnameType
  · subst h5; rw [readRData_cname] at h
    obtain ⟨a, ha, rfl⟩ := map_ok_iff.mp h
    obtain ⟨n, rest, e1, e2, rfl⟩ := (nameRead_ok_iff dbg msg data (CName.mk name) a).mp ha
    exact .cname data rest n e1 e2
  by_cases h6 : ty = dnameType
  · subst h6; rw [readRData_dname] at h
    obtain ⟨a, ha, rfl⟩ := map_ok_iff.mp h
    obtain ⟨n, rest, e1, e2, rfl⟩ := (nameRead_ok_iff dbg msg data (DName.mk name) a).mp ha
    exact .dname data rest n e1 e2
  by_cases h7 : ty = tlsaType
  · subst h7; rw [readRData_tlsa] at h
    obtain ⟨a, ha, rfl⟩ := map_ok_iff.mp h
    unfold TLSA.read at ha
    simp only [Res.bind_ok_iff, Prod.exists, Res.pure_eq, Res.ok.injEq] at ha
    obtain ⟨u, d1, e1, s, d2, e2, t, d3, e3, rfl⟩ := ha
    rw [readU8_ok e1, readU8_ok e2, readU8_ok e3]
    exact .tlsa u s t d3
  by_cases h8 : ty = dnskeyType
  · subst h8; rw [readRData_dnskey] at h
    obtain ⟨a, ha, rfl⟩ := map_ok_iff.mp h
    unfold DnsKey.read at ha
    simp only [Res.bind_ok_iff, Prod.exists, Res.pure_eq, Res.ok.injEq] at ha
    obtain ⟨u, d1, e1, s, d2, e2, t, d3, e3, rfl⟩ := ha
    rw [readU16_rest e1, readU8_ok e2, readU8_ok e3]
    exact .dnskey u s t d3
  by_cases h9 : ty = dsType
  · subst h9; rw [readRData_ds] at h
    obtain ⟨a, ha, rfl⟩ := map_ok_iff.mp h
    unfold DS.read at ha
    simp only [Res.bind_ok_iff, Prod.exists, Res.pure_eq, Res.ok.injEq] at ha
    obtain ⟨u, d1, e1, s, d2, e2, t, d3, e3, rfl⟩ := ha
    rw [readU16_rest e1, readU8_ok e2, readU8_ok e3]
    exact .ds u s t d3
  by_cases h10 : ty = rrsigType
  · subst h10; rw [readRData_rrsig] at h
    obtain ⟨a, ha, rfl⟩ := map_ok_iff.mp h
    unfold RRSig.read at ha
    simp only [Res.bind_ok_iff, Prod.exists, Res.pure_eq, Res.ok.injEq] at ha
    obtain ⟨t, d1, e1, al, d2, e2, lb, d3, e3, ot, d4, e4, ex, d5, e5, inc, d6, e6, kt, d7, e7, kn, d8, e8, rfl⟩ := ha
    rw [readU16_rest e1, readU8_ok e2, readU8_ok e3, readU32_rest e4, readU32_rest e5, readU32_rest e6, readU16_rest e7]
    have := ReadsRData.rrsig (dbg := dbg) (owner := name) t al lb ot ex inc kt kn d7 d8 (readName_reads.mp e8)
    show ReadsRData dbg msg name 46 _ _
    simpa using this
  by_cases h11 : ty = nsecType
  · subst h11; rw [readRData_nsec] at h
    obtain ⟨a, ha, rfl⟩ := map_ok_iff.mp h
    unfold NSec.read at ha
    simp only [Res.bind_ok_iff, Prod.exists, Res.pure_eq, Res.ok.injEq] at ha
    obtain ⟨n, d1, e1, m, e2, rfl⟩ := ha
    exact .nsec data d1 n m (readName_reads.mp e1) ((readNsecTypesBitmap_iff _ _).mp e2)
  by_cases h12 : ty = nsec3Type
  · subst h12; rw [readRData_nsec3] at h
    obtain ⟨a, ha, rfl⟩ := map_ok_iff.mp h
    unfold NSec3.read at ha
    simp only [Res.bind_ok_iff, Prod.exists, Res.pure_eq, Res.ok.injEq] at ha
    obtain ⟨al, d1, e1, fl, d2, e2, it, d3, e3, salt, d4, e4, hash, d5, e5, m, e6, rfl⟩ := ha
    obtain ⟨f4, l4⟩ := readU8LenPrefixed_ok e4
    obtain ⟨f5, l5⟩ := readU8LenPrefixed_ok e5
    rw [readU8_ok e1, readU8_ok e2, readU16_rest e3, f4, f5]
    have := ReadsRData.nsec3 (dbg := dbg) (msg := msg) (owner := name) al fl it salt hash d5 m l4 l5 ((readNsecTypesBitmap_iff _ _).mp e6)
    show ReadsRData dbg msg name 50 _ _
    simpa [charStrings] using this
  · have : readRData dbg msg ty name data = .err () := by
      simp [readRData, h1, h2, h3, h4, h5, h6, h7, h8, h9, h10, h11, h12]
    rw [this] at h; simp at h

theorem readRData_of_reads {dbg : Bool} {msg : Bytes} {ty : UInt16} {name : Name} {data : Bytes} {rr : RR}
    (h : ReadsRData dbg msg name ty.toNat data rr) : readRData dbg msg ty name data = .ok rr := by
  generalize hk : ty.toNat = k at h
  cases h with
  | a addr =>
    obtain rfl := u16_of_toNat (u := aType) hk rfl
    rw [readRData_a]; simp [A.read, addr.2]
  | ns data rest n e1 e2 =>
    obtain rfl := u16_of_toNat (u := nsType) hk rfl
    rw [readRData_ns, map_ok_iff]
    exact ⟨⟨name, n⟩, (nameRead_ok_iff dbg msg data (NS.mk name) _).mpr ⟨n, rest, e1, e2, rfl⟩, rfl⟩
  | cname data rest n e1 e2 =>
    obtain rfl := u16_of_toNat (u := cnameType) hk rfl
    rw [readRData_cname, map_ok_iff]
    exact ⟨⟨name, n⟩, (nameRead_ok_iff dbg msg data (CName.mk name) _).mpr ⟨n, rest, e1, e2, rfl⟩, rfl⟩
  | txt ss hss =>
    obtain rfl := u16_of_toNat (u := txtType) hk rfl
    rw [readRData_txt, map_ok_iff]
    exact ⟨⟨name, ss.flatten⟩, (txtRead_iff name _ _).mpr ⟨rfl, ss, rfl, hss, rfl⟩, rfl⟩
  | aaaa addr =>
    obtain rfl := u16_of_toNat (u := aaaaType) hk rfl
    rw [readRData_aaaa]; simp [AAAA.read, addr.2]
  | dname data rest n e1 e2 =>
    obtain rfl := u16_of_toNat (u := dnameType) hk rfl
    rw [readRData_dname, map_ok_iff]
    exact ⟨⟨name, n⟩, (nameRead_ok_iff dbg msg data (DName.mk name) _).mpr ⟨n, rest, e1, e2, rfl⟩, rfl⟩
  | ds kt al dt d =>
    obtain rfl := u16_of_toNat (u := dsType) hk rfl
    rw [readRData_ds]; simp [DS.read, readU8]
  | rrsig t al lb ot ex inc kt kn tl sg e =>
    obtain rfl := u16_of_toNat (u := rrsigType) hk rfl
    rw [readRData_rrsig]
    simp [RRSig.read, readU8, readName_reads.mpr e]
  | nsec data bm n m e1 e2 =>
    obtain rfl := u16_of_toNat (u := nsecType) hk rfl
    rw [readRData_nsec]
    simp [NSec.read, readName_reads.mpr e1, (readNsecTypesBitmap_iff _ _).mpr e2]
  | dnskey fl pr al key =>
    obtain rfl := u16_of_toNat (u := dnskeyType) hk rfl
    rw [readRData_dnskey]; simp [DnsKey.read, readU8]
  | nsec3 al fl it salt hash bm m l1 l2 e =>
    obtain rfl := u16_of_toNat (u := nsec3Type) hk rfl
    rw [readRData_nsec3]
    simp [NSec3.read, readU8, charStrings, readU8LenPrefixed_write l1, readU8LenPrefixed_write l2, (readNsecTypesBitmap_iff _ _).mpr e]
  | tlsa u s t d =>
    obtain rfl := u16_of_toNat (u := tlsaType) hk rfl
    rw [readRData_tlsa]; simp [TLSA.read, readU8]

theorem readRData_iff {dbg : Bool} {msg : Bytes} {ty : UInt16} {name : Name} {data : Bytes} {rr : RR} :
    readRData dbg msg ty name data = .ok rr ↔ ReadsRData dbg msg name ty.toNat data rr :=
  ⟨readRData_reads, readRData_of_reads⟩

theorem parseWirePacketRR_iff {dbg : Bool} {msg inp : Bytes} {r : RR × UInt32} {rest : Bytes} :
    parseWirePacketRR dbg msg inp = .ok (r, rest) ↔ ReadsRecord dbg msg inp r rest := by
  obtain ⟨rr, ttl⟩ := r
  constructor
  · intro h
    obtain ⟨name, ty, data, r1, h1, h2, h3, h4⟩ := parseWirePacketRR_ok h
    exact ⟨name, ty, data, r1, readName_reads.mp h1, by rw [h2]; simp, h3, readRData_iff.mp h4⟩
  · rintro ⟨name, ty, data, r1, h1, h2, h3, h4⟩
    have hlen : (UInt16.ofNat data.length).toNat = data.length := by rw [UInt16.toNat_ofNat']; omega
    have h2' : r1 = be16 ty ++ (be16 1 ++ (be32 ttl ++ (be16 (UInt16.ofNat data.length) ++ (data ++ rest)))) := by rw [h2]; simp
    unfold parseWirePacketRR
    rw [readName_reads.mpr h1, Res.ok_bind]
    simp only []
    rw [h2', readU16_be16, Res.ok_bind]
    simp only []
    rw [readU16_be16, Res.ok_bind]
    simp only [ne_eq, not_true_eq_false, if_false]
    rw [readU32_be32, Res.ok_bind]
    simp only []
    rw [readU16_be16, Res.ok_bind]
    simp only [hlen]
    rw [if_neg (by simp), List.take_left, List.drop_left, readRData_iff.mpr h4]
    rfl

theorem parseRR_iff {dbg : Bool} {inp : Bytes} {rr : RR} {rest : Bytes} :
    parseRR dbg inp = .ok (rr, rest) ↔ ∃ ttl, ReadsRecord dbg [] inp (rr, ttl) rest := by
  unfold parseRR
  rw [map_ok_iff]
  constructor
  · rintro ⟨⟨⟨rr', ttl⟩, rest'⟩, h1, h2⟩
    simp only [Prod.mk.injEq] at h2
    obtain ⟨rfl, rfl⟩ := h2
    exact ⟨ttl, parseWirePacketRR_iff.mp h1⟩
  · rintro ⟨ttl, h⟩
    exact ⟨((rr, ttl), rest), parseWirePacketRR_iff.mpr h, rfl⟩

end Dnssec
