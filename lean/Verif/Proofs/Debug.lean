import Verif.Model.Debug
import Verif.Proofs.ZoneLoop
import Verif.Proofs.Parsed
import Verif.Proofs.QueryBuf
import Verif.Proofs.Misc

/-! # Debug builds do what release builds do -/

namespace Dnssec

open Spec

theorem addU16_ok {a b : UInt16} (h : a.toNat + b.toNat < 65536) : addU16 a b = some (a + b) := if_pos h

theorem addU32_ok {a b : UInt32} (h : a.toNat + b.toNat < 4294967296) : addU32 a b = some (a + b) := if_pos h

/-! ### Writing -/

theorem bitmapLenLoopD_ok : ∀ (cs : List Bytes) (tot : UInt16), (∀ c ∈ cs, c.length = 32) → tot.toNat + 34 * cs.length < 65536 →
    bitmapLenLoopD cs tot = some (cs.foldl (fun total flags =>
      if flags ≠ List.replicate 32 0 then total + (3 + UInt16.ofNat ((rposNonzero flags).getD 0)) else total) tot)
  | [], tot, _, _ => rfl
  | c :: cs, tot, hc, hb => by
    have hl := hc c (by simp)
    have hb' : tot.toNat + (34 * cs.length + 34) < 65536 := by
      rw [List.length_cons] at hb; omega
    rw [bitmapLenLoopD, if_neg (by simp [hl]), List.foldl_cons]
    by_cases h0 : c = List.replicate 32 0
    · rw [if_neg (by simpa using h0), if_neg (by simpa using h0)]
      exact bitmapLenLoopD_ok cs tot (fun x hx => hc x (by simp [hx])) (by omega)
    · rw [if_pos h0, if_pos h0]
      cases hp : rposNonzero c with
      | none => exact absurd (by rw [← hl]; exact rposNonzero_none hp) h0
      | some i =>
        obtain ⟨_, _, _, _, _, hi⟩ := rposNonzero_some hp
        have e1 : (UInt16.ofNat i).toNat = i := by simp; omega
        have e2 : ((3 : UInt16) + UInt16.ofNat i).toNat = 3 + i := by rw [UInt16.toNat_add, e1]; simp; omega
        have e3 : (tot + (3 + UInt16.ofNat i)).toNat = tot.toNat + (3 + i) := by rw [UInt16.toNat_add, e2]; simp; omega
        simp only []
        rw [addU16_ok (by rw [e1]; simp; omega)]
        simp only []
        rw [addU16_ok (by rw [e2]; omega)]
        simp only [Option.getD_some]
        exact bitmapLenLoopD_ok cs _ (fun x hx => hc x (by simp [hx])) (by rw [e3]; omega)

theorem nsecTypesBitmapLenD_ok (m : NSecTypeMask) : nsecTypesBitmapLenD m.bytes.1 = some (nsecTypesBitmapLen m.bytes.1) := by
  have hm := m.bytes.2
  obtain ⟨h1, h2, h3⟩ := chunks32_props 256 m.bytes.1 m.bytes.1.length (by omega) (Nat.le_refl _)
  exact bitmapLenLoopD_ok _ _ h2 (by rw [h1]; simp)

theorem writeWindowsD_ok : ∀ (cs : List Bytes) (k : Nat), (∀ c ∈ cs, c.length = 32) → writeWindowsD k cs = some (writeChunks k cs)
  | [], _, _ => rfl
  | c :: cs, k, hc => by
    have hl := hc c (by simp)
    have hw : writeWindowD k c = some (writeWindow k c) := by
      unfold writeWindowD writeWindow
      rw [if_neg (by simp [hl])]
      by_cases h0 : c = List.replicate 32 0
      · rw [if_neg (by simpa using h0), if_neg (by simpa using h0)]
      · rw [if_pos h0, if_pos h0]
        cases hp : rposNonzero c with
        | none => exact absurd (by rw [← hl]; exact rposNonzero_none hp) h0
        | some i =>
          obtain ⟨_, _, _, _, _, hi⟩ := rposNonzero_some hp
          have : UInt8.ofNat i ≠ 255 := by
            intro h
            have := congrArg UInt8.toNat h
            simp at this; omega
          simp only [Option.getD_some]
          rw [if_neg this]
    rw [writeWindowsD, hw]
    simp only []
    rw [writeWindowsD_ok cs (k + 1) (fun x hx => hc x (by simp [hx])), writeChunks_cons]
    rfl

theorem writeNsecTypesBitmapD_ok (m : NSecTypeMask) : writeNsecTypesBitmapD m.bytes.1 = some (writeNsecTypesBitmap m.bytes.1) := by
  have hm := m.bytes.2
  obtain ⟨h1, h2, h3⟩ := chunks32_props 256 m.bytes.1 m.bytes.1.length (by omega) (Nat.le_refl _)
  exact writeWindowsD_ok _ _ h2

theorem writeDataD_ok {r : RR} (h : (rdata r).length ≤ 65535) : r.writeDataD = some r.writeData := by
  cases r with
  | rrsig r =>
    rw [rdata_rrsig] at h
    simp only [List.length_append, List.length_cons, be16_length, be32_length] at h
    have e1 : (nameLen r.keyName).toNat = (writeName r.keyName.bytes).length := by rw [nameLen_eq]; simp; omega
    have e2 : (UInt16.ofNat r.signature.length).toNat = r.signature.length := by simp; omega
    have e0 : (2 + 1 + 1 + 4*3 + 2 : UInt16).toNat = 18 := by decide
    have e3 : ((2 + 1 + 1 + 4*3 + 2 : UInt16) + nameLen r.keyName).toNat = 18 + (writeName r.keyName.bytes).length := by
      rw [UInt16.toNat_add, e0, e1]; omega
    simp only [RR.writeDataD, RRSig.writeDataD]
    rw [addU16_ok (by rw [e0, e1]; omega)]
    simp only []
    rw [addU16_ok (by rw [e3, e2]; omega)]
    rfl
  | nsec r =>
    rw [rdata_nsec, List.length_append] at h
    have e1 : (nameLen r.nextName).toNat = (writeName r.nextName.bytes).length := by rw [nameLen_eq]; simp; omega
    have e2 : (nsecTypesBitmapLen r.types.bytes.1).toNat = (writeNsecTypesBitmap r.types.bytes.1).length := by
      rw [nsecTypesBitmapLen_eq]; simp; omega
    simp only [RR.writeDataD, NSec.writeDataD, nsecTypesBitmapLenD_ok, writeNsecTypesBitmapD_ok]
    rw [addU16_ok (by rw [e1, e2]; omega)]
    rfl
  | nsec3 r =>
    rw [rdata_nsec3] at h
    simp only [List.length_append, List.length_cons, be16_length] at h
    have e1 : (UInt16.ofNat r.salt.length).toNat = r.salt.length := by simp; omega
    have e2 : (UInt16.ofNat r.nextNameHash.length).toNat = r.nextNameHash.length := by simp; omega
    have e3 : (nsecTypesBitmapLen r.types.bytes.1).toNat = (writeNsecTypesBitmap r.types.bytes.1).length := by
      rw [nsecTypesBitmapLen_eq]; simp; omega
    have e0 : (4 + 2 : UInt16).toNat = 6 := by decide
    have e4 : ((4 + 2 : UInt16) + UInt16.ofNat r.salt.length).toNat = 6 + r.salt.length := by
      rw [UInt16.toNat_add, e0, e1]; omega
    have e5 : ((4 + 2 : UInt16) + UInt16.ofNat r.salt.length + UInt16.ofNat r.nextNameHash.length).toNat =
        6 + r.salt.length + r.nextNameHash.length := by
      rw [UInt16.toNat_add, e4, e2]; omega
    simp only [RR.writeDataD, NSec3.writeDataD, nsecTypesBitmapLenD_ok, writeNsecTypesBitmapD_ok]
    rw [addU16_ok (by rw [e0, e1]; omega)]
    simp only []
    rw [addU16_ok (by rw [e4, e2]; omega)]
    simp only []
    rw [addU16_ok (by rw [e5, e3]; omega)]
    rfl
  | _ => rfl

theorem writeRRD_ok {r : RR} (h : (rdata r).length ≤ 65535) (ttl : UInt32) : writeRRD r ttl = some (writeRR r ttl) := by
  rw [writeRRD, writeDataD_ok h]; rfl

/-! ### Key tags -/

theorem keyTagLoopD_ok : ∀ (bs : Bytes) (idx : Nat) (res : UInt32), res.toNat + 65280 * bs.length < 4294967296 →
    keyTagLoopD idx bs res = some (keyTagLoop idx bs res) ∧ (keyTagLoop idx bs res).toNat ≤ res.toNat + 65280 * bs.length
  | [], idx, res, _ => ⟨rfl, by simp [keyTagLoop]⟩
  | b :: bs, idx, res, h => by
    have hb := b.toNat_lt
    have hx : (if idx % 2 = 0 then b.toUInt32 <<< 8 else b.toUInt32).toNat ≤ 65280 := by
      split
      · rw [shl8_toNat]; omega
      · rw [UInt8.toNat_toUInt32]; omega
    have hl : 65280 * (b :: bs).length = 65280 * bs.length + 65280 := by rw [List.length_cons]; omega
    rw [hl] at h ⊢
    have hs : (res + (if idx % 2 = 0 then b.toUInt32 <<< 8 else b.toUInt32)).toNat =
        res.toNat + (if idx % 2 = 0 then b.toUInt32 <<< 8 else b.toUInt32).toNat := by
      rw [UInt32.toNat_add]; omega
    rw [keyTagLoopD, addU32_ok (by omega), keyTagLoop,
      show (if idx % 2 = 0 then res + (b.toUInt32 <<< 8) else res + b.toUInt32) =
        res + (if idx % 2 = 0 then b.toUInt32 <<< 8 else b.toUInt32) by split <;> rfl]
    obtain ⟨i1, i2⟩ := keyTagLoopD_ok bs (idx + 1) _ (show
      (res + (if idx % 2 = 0 then b.toUInt32 <<< 8 else b.toUInt32)).toNat + 65280 * bs.length < 4294967296 by omega)
    exact ⟨i1, by omega⟩

theorem computeKeyTagD_ok {k : DnsKey} (h : k.pubkey.length ≤ 65535) : k.computeKeyTagD = some k.computeKeyTag := by
  have h1 := k.flags.toNat_lt
  have h2 := k.protocol.toNat_lt
  have h3 := k.alg.toNat_lt
  have a1 : k.flags.toUInt32.toNat = k.flags.toNat := by simp
  have a2 : (k.protocol.toUInt32 <<< 8).toNat = k.protocol.toNat * 256 := shl8_toNat _
  have a3 : k.alg.toUInt32.toNat = k.alg.toNat := by simp
  have b1 : (k.flags.toUInt32 + (k.protocol.toUInt32 <<< 8)).toNat = k.flags.toNat + k.protocol.toNat * 256 := by
    rw [UInt32.toNat_add, a1, a2]; omega
  have b2 : (k.flags.toUInt32 + (k.protocol.toUInt32 <<< 8) + k.alg.toUInt32).toNat =
      k.flags.toNat + k.protocol.toNat * 256 + k.alg.toNat := by
    rw [UInt32.toNat_add, b1, a3]; omega
  obtain ⟨c1, c2⟩ := keyTagLoopD_ok k.pubkey 0 (k.flags.toUInt32 + (k.protocol.toUInt32 <<< 8) + k.alg.toUInt32) (by omega)
  unfold DnsKey.computeKeyTagD DnsKey.computeKeyTag
  rw [addU32_ok (by omega)]
  simp only []
  rw [addU32_ok (by omega)]
  simp only [c1]
  rw [addU32_ok (by rw [shr16_toNat]; omega)]

/-! ### One signature -/

theorem signedOwnerD_eq (sig : RRSig) (r : RR) : signedOwnerD sig r = match signedOwner sig r with
    | some o => .ok o
    | none => .err .invalid := by
  unfold signedOwnerD signedOwner
  simp only []
  split
  · split
    · rfl
    · rename_i h1 h2
      have : (r.name.trailingNLabels sig.labels).isSome := by
        rw [trailingNLabels_isSome, UInt8.le_iff_toNat_le]; omega
      obtain ⟨x, hx⟩ := Option.isSome_iff_exists.mp this
      rw [hx]; rfl
  · rfl

theorem signedRecordsD_eq (sig : RRSig) : ∀ rs : List RR, (∀ r ∈ rs, (rdata r).length ≤ 65535) →
    signedRecordsD sig rs = match signedRecords sig rs with
      | some d => .ok d
      | none => .err .invalid
  | [], _ => rfl
  | r :: rs, h => by
    rw [signedRecordsD, signedOwnerD_eq, signedRecords]
    cases signedOwner sig r with
    | none => rfl
    | some o =>
      simp only [Res.bind]
      rw [writeDataD_ok (h r (by simp)), signedRecordsD_eq sig rs (fun x hx => h x (by simp [hx]))]
      cases signedRecords sig rs <;> rfl

theorem signedDataD_eq {sig : RRSig} {rs : List RR} (h : ∀ r ∈ rs, (rdata r).length ≤ 65535) :
    signedDataD sig rs = match signedData sig rs with
      | some d => .ok d
      | none => .err .invalid := by
  rw [signedDataD, signedRecordsD_eq _ _ (fun r hr => h r ((sortBy_perm _ rs).mem_iff.mp hr)), signedData]
  cases signedRecords sig (sortBy RR.partialCmp rs) <;> rfl

theorem verifyKeysLoopD_eq {p : Platform} {sig : RRSig} {rs : List RR} (h : ∀ r ∈ rs, (rdata r).length ≤ 65535) :
    ∀ ks : List DnsKey, (∀ k ∈ ks, k.pubkey.length ≤ 65535) → verifyKeysLoopD p sig rs ks = verifyKeysLoop p sig rs ks
  | [], _ => rfl
  | k :: ks, hk => by
    rw [verifyKeysLoopD, computeKeyTagD_ok (hk k (by simp)), verifyKeysLoop]
    simp only []
    unfold keyEligible
    split
    · rw [signedDataD_eq h]
      cases signedData sig rs <;> rfl
    · exact verifyKeysLoopD_eq h ks (fun x hx => hk x (by simp [hx]))

theorem verifyRrsigD_eq {p : Platform} {sig : RRSig} {ks : List DnsKey} {rs : List RR} (h : ∀ r ∈ rs, (rdata r).length ≤ 65535)
    (hk : ∀ k ∈ ks, k.pubkey.length ≤ 65535) : verifyRrsigD p sig ks rs = verifyRrsig p sig ks rs := by
  rw [verifyRrsigD, verifyRrsig, verifyKeysLoopD_eq h ks hk]

/-! ### Key sets -/

theorem dsLoopD_eq {p : Platform} {dses : List DS} {k : DnsKey} (hk : k.pubkey.length ≤ 65535) : ∀ l : List DS,
    dsLoopD p dses k l = some (l.any (dsMatches p dses k))
  | [] => rfl
  | ds :: l => by
    rw [dsLoopD, dsLoopD_eq hk l, computeKeyTagD_ok hk, List.any_cons]
    by_cases h1 : ds.alg = k.alg
    · rw [if_neg (by simpa using h1)]
      simp only [dsMatches, h1, beq_self_eq_true, Bool.true_and]
      by_cases h2 : k.computeKeyTag = ds.keyTag
      · simp only [h2, true_and, beq_self_eq_true, Bool.true_and]
        split
        · simp_all
          split <;> simp_all
        · simp_all
          split <;> simp_all
      · rw [if_neg (by simp [h2])]
        simp [h2]
    · rw [if_pos h1]
      simp [dsMatches, h1]

theorem validatedKeysD_eq {p : Platform} {dses : List DS} : ∀ ks : List DnsKey, (∀ k ∈ ks, k.pubkey.length ≤ 65535) →
    validatedKeysD p dses ks = some (validatedKeys p dses ks)
  | [], _ => rfl
  | k :: ks, h => by
    rw [validatedKeysD, dsLoopD_eq (h k (by simp)), validatedKeysD_eq ks (fun x hx => h x (by simp [hx])), validatedKeys,
      validatedKeys, List.filter_cons]
    rfl

theorem dnskeySigLoopD_eq {p : Platform} {v ks : List DnsKey} (hv : ∀ k ∈ v, k.pubkey.length ≤ 65535)
    (hk : ∀ k ∈ ks, (rdata (.dnskey k)).length ≤ 65535) : ∀ (sigs : List RRSig) (b : Bool),
    dnskeySigLoopD p v ks sigs b = dnskeySigLoop p v ks sigs b
  | [], _ => rfl
  | s :: sigs, b => by
    rw [dnskeySigLoopD, dnskeySigLoop, verifyRrsigD_eq (by simpa using hk) hv, dnskeySigLoopD_eq hv hk sigs true]
    cases verifyRrsig p s v (ks.map RR.dnskey) with
    | ok u => rfl
    | err e => cases e <;> rfl
    | panic => rfl

theorem pubkey_le {k : DnsKey} (h : (rdata (.dnskey k)).length ≤ 65535) : k.pubkey.length ≤ 65535 := by
  rw [rdata_dnskey] at h
  simp only [List.length_append, List.length_cons] at h
  omega

theorem verifyDnskeysD_eq {p : Platform} {sigs : List RRSig} {dses : List DS} {ks : List DnsKey}
    (hk : ∀ k ∈ ks, (rdata (.dnskey k)).length ≤ 65535) : verifyDnskeysD p sigs dses ks = verifyDnskeys p sigs dses ks := by
  rw [verifyDnskeysD, verifyDnskeys, validatedKeysD_eq ks (fun k h => pubkey_le (hk k h))]
  simp only []
  have hv : ∀ k ∈ validatedKeys p dses ks, k.pubkey.length ≤ 65535 := by
    intro k h
    unfold validatedKeys at h
    exact pubkey_le (hk k (List.mem_filter.mp h).1)
  rw [dnskeySigLoopD_eq hv hk]

/-! ### The zones -/

theorem dsSetD_eq : ∀ l : List RR, (∀ r ∈ l, r.ty = dsType) → dsSetD l = some (l.filterMap fun | .ds d => some d | _ => none)
  | [], _ => rfl
  | r :: l, h => by
    have hr := h r (by simp)
    cases r with
    | ds d =>
      rw [dsSetD, dsSetD_eq l (fun x hx => h x (by simp [hx]))]
      rfl
    | _ => simp [RR.ty, dsType, aType, aaaaType, nsType, txtType, tlsaType, cnameType, dnameType, dnskeyType, rrsigType, nsecType,
        nsec3Type] at hr

theorem signedRecords_owner {sig : RRSig} : ∀ {rs : List RR} {d : Bytes}, signedRecords sig rs = some d → ∀ r ∈ rs,
    ∃ o, signedOwner sig r = some o
  | [], _, _, r, hr => by simp at hr
  | x :: rs, d, h, r, hr => by
    rw [signedRecords] at h
    cases hx : signedOwner sig x with
    | none => rw [hx] at h; simp at h
    | some o =>
      rw [hx] at h
      rcases List.mem_cons.mp hr with rfl | hr
      · exact ⟨o, hx⟩
      · cases hs : signedRecords sig rs with
        | none => rw [hs] at h; simp at h
        | some d' => exact signedRecords_owner hs r hr

theorem labels_of_verified {p : Platform} {sig : RRSig} {ks : List DnsKey} {rs : List RR} (h : verifyRrsig p sig ks rs = .ok ())
    {r : RR} (hr : r ∈ rs) : r.ty = 47 ∨ sig.labels.toNat ≤ r.name.labels.toNat := by
  unfold verifyRrsig at h
  split at h
  · simp at h
  · rcases verifyKeysLoop_cases p sig rs ks with ⟨h1, _⟩ | ⟨k, _, h2⟩
    · rw [h1] at h; simp at h
    · rw [h2] at h
      cases hd : signedData sig rs with
      | none => rw [hd] at h; simp at h
      | some d =>
        unfold signedData at hd
        cases hs : signedRecords sig (sortBy RR.partialCmp rs) with
        | none => rw [hs] at hd; simp at hd
        | some d' =>
          obtain ⟨o, ho⟩ := signedRecords_owner hs r ((sortBy_perm _ rs).mem_iff.mpr hr)
          unfold signedOwner at ho
          simp only [] at ho
          split at ho
          · split at ho
            · simp at ho
            · right; omega
          · rename_i h'
            by_cases h47 : r.ty = 47
            · exact Or.inl h47
            · right
              have : ¬ (r.name.labels.toNat ≠ sig.labels.toNat) := fun hne => h' ⟨h47, hne⟩
              omega

theorem acceptSigD_eq {inp : List RR} {sig : RRSig} (st : VState)
    (hL : sig.labels = 255 → sig.ty ≠ 47 → sig.name.labels = 255) : acceptSigD inp sig st = acceptSig false inp sig st := by
  unfold acceptSigD acceptSig
  split
  · rfl
  split
  · split
    · rfl
    · rename_i h1 h2 h3
      rw [dsSetD_eq _ (by
        intro r hr
        rw [coveredRecords_eq, mem_rrset] at hr
        rw [hr.2.2, h2])]
      rfl
  · simp only []
    split
    · rename_i h1 h2 h3
      split
      · rfl
      · have : labelsPlusOne true sig.labels = labelsPlusOne false sig.labels := by
          unfold labelsPlusOne
          have h255 : sig.labels ≠ 255 := by
            intro h
            exact h3.1 (by rw [h, hL h h3.2])
          simp [h255]
        rw [this]
        rfl
    · rfl

/-- What verifying assumes about the input: lengths within the limits of DNS, and no RRSIG with 255 labels for no records. -/
structure DebugSafe (inp : List RR) : Prop where
  sized : ∀ r ∈ inp, (rdata r).length ≤ 65535
  dotted : ∀ r ∈ inp, dot ∈ r.name.bytes
  labels : ∀ s, RR.rrsig s ∈ inp → s.labels = 255 → s.ty = 47 ∨ ∃ r ∈ inp, r.name = s.name ∧ r.ty = s.ty

variable {p : Platform} {inp : List RR}

theorem zoneKeys_sized (h : DebugSafe inp) (zone : Bytes) : ∀ k ∈ zoneKeys inp zone, (rdata (.dnskey k)).length ≤ 65535 := by
  intro k hk
  have : k ∈ keysAt inp ⟨zone⟩ := by rw [← zoneKeys_eq]; exact hk
  exact h.sized _ (mem_keysAt.mp this).1

theorem sigLoopD_eq (h : DebugSafe inp) (zone : Bytes) : ∀ (sigs : List RRSig) (st : VState), (∀ s ∈ sigs, RR.rrsig s ∈ inp) →
    sigLoopD p inp zone sigs st = sigLoop false p inp zone sigs st
  | [], st, _ => rfl
  | s :: sigs, st, hs => by
    have hr : ∀ r ∈ coveredRecords inp s, r ∈ inp ∧ r.name = s.name ∧ r.ty = s.ty := by
      intro r hr
      rw [coveredRecords_eq, mem_rrset] at hr
      exact hr
    rw [sigLoopD, sigLoop, verifyRrsigD_eq (fun r hr' => h.sized r (hr r hr').1) (fun k hk => pubkey_le (zoneKeys_sized h zone k hk))]
    split
    · rfl
    · have ih := fun st => sigLoopD_eq h zone sigs st (fun x hx => hs x (by simp [hx]))
      cases hv : verifyRrsig p s (zoneKeys inp zone) (coveredRecords inp s) with
      | panic => rfl
      | err e => cases e <;> simp [ih]
      | ok u =>
        simp only []
        rw [acceptSigD_eq]
        · congr 1
          funext st
          exact ih st
        · intro h255 h47
          rcases h.labels s (hs s (by simp)) h255 with h' | ⟨r, h1, h2, h3⟩
          · exact absurd h' h47
          · have hc : r ∈ coveredRecords inp s := by rw [coveredRecords_eq, mem_rrset]; exact ⟨h1, h2, h3⟩
            rcases labels_of_verified hv hc with h' | h'
            · exact absurd (h3.symm.trans h') h47
            · rw [h2, h255] at h'
              have h255' : (255 : UInt8).toNat = 255 := rfl
              have := s.name.labels.toNat_lt
              rw [← UInt8.toNat_inj]
              omega

theorem mem_rrsigs' {s : RRSig} : s ∈ rrsigs inp → RR.rrsig s ∈ inp := by
  intro h
  unfold rrsigs at h
  rw [List.mem_filterMap] at h
  obtain ⟨r, hr, e⟩ := h
  cases r <;> simp at e
  subst e
  exact hr

theorem doZoneD_eq (h : DebugSafe inp) (zone : Bytes) (ds : List DS) (st : VState) :
    doZoneD p inp zone (some ds) st = doZone false p inp zone ds st := by
  unfold doZoneD doZone
  have hs : ∀ s ∈ zoneRrsigs inp zone, RR.rrsig s ∈ inp := fun s hs => mem_rrsigs' (List.mem_filter.mp hs).1
  have e := fun st => sigLoopD_eq (p := p) h zone (zoneRrsigs inp zone) st hs
  simp only [e]
  split <;> rw [verifyDnskeysD_eq (zoneKeys_sized h zone)]

theorem doZoneD_root (h : DebugSafe inp) (st : VState) : doZoneD p inp [dot] none st = doZone false p inp [dot] [] st := by
  rw [← doZoneD_eq h]; rfl

theorem zoneLoopD_eq (h : DebugSafe inp) : ∀ (fuel : Nat) (zone : Bytes) (st : VState),
    zoneLoopD p inp fuel zone st = zoneLoop false p inp fuel zone st := by
  intro fuel
  induction fuel with
  | zero =>
    intro zone st
    rw [zoneLoopD.eq_def, zoneLoop.eq_def]
  | succ fuel ih =>
    intro zone st
    rw [zoneLoopD.eq_def, zoneLoop.eq_def]
    simp only []
    split
    · rename_i hc
      cases hp : st.pending with
      | nil =>
        have hz : zone = [dot] := by
          rcases hc with hc | hc
          · exact hc
          · exact absurd hp hc
        subst hz
        simp only [ne_eq, not_true_eq_false, if_false, ih, doZoneD_root h]
        cases doZone false p inp [dot] [] st <;> rfl
      | cons x rest =>
        obtain ⟨z, ds⟩ := x
        simp only [ih, doZoneD_eq h]
        cases doZone false p inp z.bytes ds { st with pending := rest } <;> rfl
    · rfl

/-! ### Denials -/

theorem splitOnceDot_some : ∀ {s : Bytes}, dot ∈ s → ∃ x, splitOnceDot s = some x
  | [], h => by simp at h
  | c :: s, h => by
    rw [splitOnceDot]
    by_cases hc : c = dot
    · exact ⟨_, by simp [hc]; rfl⟩
    · have : dot ∈ s := by
        rcases List.mem_cons.mp h with h | h
        · exact absurd h.symm hc
        · exact h
      obtain ⟨x, hx⟩ := splitOnceDot_some this
      simp [hc, hx]

theorem nsec3UsableD_eq {params : List (UInt16 × Bytes × Bytes)} {n : NSec3} (h : dot ∈ n.name.bytes) :
    nsec3UsableD params n = .ok (nsec3Usable params n) := by
  obtain ⟨x, hx⟩ := splitOnceDot_some h
  unfold nsec3UsableD nsec3Usable
  split
  · rfl
  split
  · rfl
  split
  · rename_i h1; rw [h1]
  · rename_i h1
    rw [h1, hx]
    simp only []
    split
    · rename_i h2; rw [h2]
    · rename_i h2
      rw [h2]
      simp only []
      split <;> simp_all

theorem nsec3FindD_eq {need : Need} {params : List (UInt16 × Bytes × Bytes)} : ∀ {ns : List NSec3}, (∀ n ∈ ns, dot ∈ n.name.bytes) →
    nsec3FindD need params ns = .ok (ns.find? (nsec3Proves need params))
  | [], _ => rfl
  | n :: ns, h => by
    rw [nsec3FindD, nsec3UsableD_eq (h n (by simp)), List.find?_cons]
    have ih := nsec3FindD_eq (need := need) (params := params) (fun x hx => h x (List.mem_cons_of_mem n hx))
    simp only [Res.bind, nsec3Proves]
    cases nsec3Usable params n with
    | none => simpa using ih
    | some x =>
      obtain ⟨start, hh⟩ := x
      simp only []
      split
      · rename_i hc; rw [hc]
      · rename_i hc
        rw [Bool.not_eq_true] at hc
        rw [hc, ih]

theorem proofLoopD_eq {res : List RR} (h : ∀ r ∈ res, dot ∈ r.name.bytes) : ∀ (fuel : Nat) (needs : List Need),
    proofLoopD p res fuel needs = proofLoop p res fuel needs
  | 0, _ => rfl
  | _ + 1, [] => rfl
  | fuel + 1, need :: rest => by
    rw [proofLoopD, proofLoop]
    cases (nsecSearch res need.zone).find? (nsecProves need) with
    | some n => exact proofLoopD_eq h fuel _
    | none =>
      simp only []
      rw [nsec3FindD_eq]
      · simp only [Res.bind]
        cases (nsec3Search res need.zone).find? (nsec3Proves need (nsec3Params p need.name (nsec3Search res need.zone) [])) with
        | some n => exact proofLoopD_eq h fuel _
        | none => rfl
      · intro n hn
        unfold nsec3Search at hn
        rw [List.mem_filterMap] at hn
        obtain ⟨r, hr, e⟩ := hn
        cases r <;> simp at e
        obtain ⟨_, rfl⟩ := e
        exact h _ hr

theorem finishVerifyD_eq {st : VState} (h : ∀ r ∈ st.res, dot ∈ r.name.bytes) : finishVerifyD p st = finishVerify p st := by
  unfold finishVerifyD finishVerify
  simp only [proofLoopD_eq h]

theorem verifyRRStreamD_eq (h : DebugSafe inp) (fuel : Nat) : verifyRRStreamD p fuel inp = verifyRRStream false p fuel inp := by
  unfold verifyRRStreamD verifyRRStream
  rw [zoneLoopD_eq h]
  cases hz : zoneLoop false p inp fuel [dot] VState.init with
  | none => rfl
  | some r =>
    cases r with
    | err e => rfl
    | panic => rfl
    | ok st =>
      simp only []
      rw [finishVerifyD_eq]
      intro r hr
      obtain ⟨sig, _, _, hm⟩ := ((zoneLoop_final hz).eff.res r).mp hr
      exact h.dotted r (mem_rrset.mp hm).1

/-! ### Release builds never panic -/

theorem sigLoop_release (zone : Bytes) : ∀ (sigs : List RRSig) (st : VState), sigLoop false p inp zone sigs st ≠ .panic
  | [], st => by simp [sigLoop]
  | s :: sigs, st => by
    rw [sigLoop]
    split
    · simp
    · split
      · exact sigLoop_release zone sigs st
      · simp
      · rename_i h; exact absurd h (verifyRrsig_no_panic _ _ _ _)
      · cases ha : acceptSig false inp s (st.note s) with
        | ok st' => exact sigLoop_release zone sigs st'
        | err e => simp [Res.bind]
        | panic =>
          exfalso
          unfold acceptSig at ha
          split at ha
          · simp at ha
          split at ha
          · split at ha <;> simp at ha
          · simp only [] at ha
            split at ha
            · split at ha
              · simp at ha
              · have e : labelsPlusOne false s.labels = .ok (s.labels + 1) := rfl
                rw [e] at ha
                simp only [Res.bind] at ha
                cases ht : s.name.trailingNLabels (s.labels + 1) with
                | none => rw [ht] at ha; simp at ha
                | some x => rw [ht] at ha; simp at ha
            · simp at ha

theorem doZone_release (zone : Bytes) (ds : List DS) (st : VState) : doZone false p inp zone ds st ≠ .panic := by
  unfold doZone
  cases h : verifyDnskeys p (dnskeyRrsigs inp zone) (if zone = [dot] then rootHints else ds) (zoneKeys inp zone) with
  | ok s => exact sigLoop_release _ _ _
  | err e => simp [Res.bind]
  | panic => exact absurd h (verifyDnskeys_no_panic _ _ _ _)

theorem zoneLoop_release : ∀ (fuel : Nat) (zone : Bytes) (st : VState), zoneLoop false p inp fuel zone st ≠ some .panic := by
  intro fuel
  induction fuel with
  | zero =>
    intro zone st
    rw [zoneLoop.eq_def]
    simp only []
    split <;> simp
  | succ fuel ih =>
    intro zone st
    rw [zoneLoop.eq_def]
    simp only []
    split
    · split
      · exact ih _ _
      · simp
      · rename_i h; exact absurd h (doZone_release _ _ _)
    · simp

theorem proofLoop_release (res : List RR) : ∀ (fuel : Nat) (needs : List Need), proofLoop p res fuel needs ≠ .panic
  | 0, _ => by simp [proofLoop]
  | _ + 1, [] => by simp [proofLoop]
  | fuel + 1, need :: rest => by
    rw [proofLoop]
    split
    · exact proofLoop_release res fuel _
    · simp only []
      split
      · exact proofLoop_release res fuel _
      · simp

theorem verifyRRStream_release (fuel : Nat) : verifyRRStream false p fuel inp ≠ some .panic := by
  unfold verifyRRStream
  split
  · simp
  · rename_i st _
    intro h
    rw [Option.some.injEq] at h
    unfold finishVerify at h
    split at h
    · simp at h
    split at h
    · simp at h
    · simp only [] at h
      cases hp : proofLoop p st.res (p.sortNeeds st.needs).reverse.length (p.sortNeeds st.needs).reverse with
      | ok u => rw [hp] at h; simp [Res.bind] at h
      | err e => rw [hp] at h; simp [Res.bind] at h
      | panic => exact proofLoop_release _ _ _ hp
  · simp
  · rename_i h; exact absurd h (zoneLoop_release _ _ _)

/-! ### Parsed records -/

theorem Spec.Obtainable.dot_mem {n : Name} (h : Obtainable n) : dot ∈ n.bytes := by
  obtain ⟨t, ht⟩ := h.nameText.1.endsInDot
  rw [ht]; simp [dot]

theorem parsed_sized {dbg : Bool} {bs : Bytes} {rr : RR} {rest : Bytes} (h : parseRR dbg bs = .ok (rr, rest)) :
    Obtainable rr.name ∧ (rdata rr).length ≤ 65535 := by
  obtain ⟨ttl, h⟩ := parseRR_ok h
  obtain ⟨name, ty, data, r1, h1, _, h3, h4⟩ := parseWirePacketRR_ok h
  obtain ⟨p1, p2, p3, p4, p5⟩ := readRData_props h4
  refine ⟨p1 ▸ readName_obtainable h1, ?_⟩
  rcases p5 with ⟨r, d, rfl, e1, e2⟩ | ⟨n, rst, e1, e2, e3⟩ | ⟨r, pre, tl, rfl, e1, e2, e3⟩ | ⟨r, rfl⟩ | ⟨r, rfl⟩ | e
  · by_cases hd : r.data = []
    · obtain ⟨rn, rd⟩ := r
      simp only at hd
      subst hd
      rw [rdata_txt_nil]; simp
    · rw [rdata_txt_nonempty r hd, e2]
      rw [txtReadLoop_iff _ _ _ _ (Nat.le_refl _)] at e1
      obtain ⟨ss, f1, f2, f3⟩ := e1
      have := txtV_length_le f2
      rw [List.nil_append] at f3
      rw [f3]; rw [f1] at h3; omega
  · have h1 := (p3 n e2).nameText.1.short
    have h2 := writeName_length_le n.bytes
    rw [e3]; omega
  · rw [readName_iff] at e3
    obtain ⟨t, f1, _, f3⟩ := e3
    obtain ⟨q, g1, _, g3⟩ := Decodes_nil_split f1
    have h2 : (writeName r.keyName.bytes).length ≤ t.length + 1 := by
      by_cases ht : t = []
      · rw [f3, ht]; decide
      · have := writeName_length_le r.keyName.bytes
        rw [f3, lower_length, orRoot, if_neg ht] at this
        rw [f3, orRoot, if_neg ht]
        exact this
    have hd : data.length = 18 + tl.length := by rw [e1, List.length_append, e2]
    have ht : tl.length = q.length + r.signature.length := by rw [g1, List.length_append]
    rw [rdata_rrsig]
    simp only [List.length_append, List.length_cons, be16_length, be32_length]
    omega
  · have h1 := (p3 r.nextName (by simp [rdataNames])).nameText.1.short
    have h2 := writeName_length_le r.nextName.bytes
    have := writeNsecTypesBitmap_length_le r.types
    rw [rdata_nsec, List.length_append]; omega
  · have := writeNsecTypesBitmap_length_le r.types
    obtain ⟨q1, q2⟩ := p4 r rfl
    rw [rdata_nsec3]
    simp only [List.length_append, List.length_cons, be16_length]
    omega
  · omega

theorem stream_sized {dbg : Bool} {bs : Bytes} {rrs : List RR} (h : parseRRStream dbg bs = .ok rrs) :
    ∀ r ∈ rrs, Obtainable r.name ∧ (rdata r).length ≤ 65535 := by
  rw [parseRRStream_iff] at h
  obtain ⟨ps, _, rfl, h3⟩ := h
  intro r hr
  obtain ⟨x, hx, rfl⟩ := List.mem_map.mp hr
  exact parsed_sized (h3 x hx)

end Dnssec
