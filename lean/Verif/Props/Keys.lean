import Verif.Props.Validation

/-! # C86, C87: SHA-384 trust anchors and revoked keys -/

namespace Dnssec.Props

open Dnssec Spec

variable {p : Platform}

/-! ## C86 -/

/-- **C86 is false**, for every key set: without SHA-256 DS records no key of a zone with a SHA-384 DS record is accepted, whatever the digests. (Not even through
a SHA-1 DS record, and the error is `Invalid`, not `UnsupportedAlgorithm`.) -/
theorem C86_fails_without_sha256 (sigs : List RRSig) (dses : List DS) (keys : List DnsKey) (h384 : ∃ d ∈ dses, d.digestType = 4)
    (h256 : ∀ d ∈ dses, d.digestType ≠ 2) : verifyDnskeys p sigs dses keys = .err .invalid := by
  obtain ⟨d, hd, ht⟩ := h384
  have hv : validatedKeys p dses keys = [] := by
    rw [validatedKeys_eq]
    apply List.filter_eq_nil_iff.mpr
    intro k _
    rw [decide_eq_true_iff]
    rintro ⟨d', hd', ⟨_, _, hm⟩, hs⟩
    rcases hm with ⟨h1, _⟩ | ⟨h2, _⟩
    · exact (hs h1 d hd).2 ht
    · exact h256 d' hd' h2
  unfold verifyDnskeys
  rw [if_neg (by cases dses <;> simp at hd ⊢), if_neg, hv]
  · cases sigs with
    | nil => rfl
    | cons s ss =>
      have : verifyRrsig p s [] (keys.map RR.dnskey) = .err .invalid := by
        unfold verifyRrsig
        split <;> rfl
      simp only [dnskeySigLoop, this]
  · rw [Bool.not_eq_true', Bool.not_eq_false]
    exact (knownDigest_iff dses).mpr ⟨d, hd, Or.inr (Or.inr ht)⟩

/-- The hypotheses are met by a DS set with a SHA-384 digest of a key, and the same key with a SHA-1 digest. -/
example : ∃ dses : List DS, (∃ d ∈ dses, d.digestType = 4) ∧ (∀ d ∈ dses, d.digestType ≠ 2) ∧ dses.length = 2 :=
  ⟨[⟨⟨ascii "c."⟩, 20326, 8, 4, List.replicate 48 7⟩, ⟨⟨ascii "c."⟩, 20326, 8, 1, List.replicate 20 7⟩], by decide +kernel, by decide +kernel, rfl⟩

/-- **C86 (partial).** Beside a SHA-256 DS record, SHA-384 ones make no difference. Missing: zones without SHA-256 DS records, for which C86 is false. -/
theorem C86_ignored_partial (sigs : List RRSig) (dses : List DS) (keys : List DnsKey) (h : ∃ d ∈ dses, d.digestType = 2) :
    verifyDnskeys p sigs dses keys = verifyDnskeys p sigs (dses.filter (fun d => d.digestType ≠ 4)) keys := by
  obtain ⟨d, hd, ht⟩ := h
  have hm : d ∈ dses.filter (fun d => d.digestType ≠ 4) := List.mem_filter.mpr ⟨hd, by simp [ht]⟩
  have hk : validatedKeys p dses keys = validatedKeys p (dses.filter (fun d => d.digestType ≠ 4)) keys := by
    rw [validatedKeys_eq, validatedKeys_eq]
    unfold anchoredKeys
    apply List.filter_congr
    intro k _
    rw [decide_eq_decide]
    unfold Anchored
    constructor
    · rintro ⟨d', hd', hv, hs⟩
      have h2 : d'.digestType = 2 := by
        rcases hv.2.2 with ⟨h1, _⟩ | ⟨h2, _⟩
        · exact absurd ht (hs h1 d hd).1
        · exact h2
      exact ⟨d', List.mem_filter.mpr ⟨hd', by simp [h2]⟩, hv, fun h1 => absurd (h1.symm.trans h2) (by decide)⟩
    · rintro ⟨d', hd', hv, hs⟩
      refine ⟨d', (List.mem_filter.mp hd').1, hv, fun h1 => absurd ht (hs h1 d hm).1⟩
  unfold verifyDnskeys
  rw [hk, if_neg (by cases dses <;> simp at hd ⊢), if_neg, if_neg (by rw [List.isEmpty_iff]; exact List.ne_nil_of_mem hm), if_neg]
  · rw [Bool.not_eq_true', Bool.not_eq_false]
    exact (knownDigest_iff _).mpr ⟨d, hm, Or.inr (Or.inl ht)⟩
  · rw [Bool.not_eq_true', Bool.not_eq_false]
    exact (knownDigest_iff _).mpr ⟨d, hd, Or.inr (Or.inl ht)⟩

/-- A zone with a SHA-256 and a SHA-384 DS record that is accepted. -/
example : ∃ s, verifyDnskeys wPlatform [⟨⟨ascii "."⟩, 48, 8, 0, 3600, 2000000000, 1000000000, 20326, ⟨ascii "."⟩, [1]⟩]
    (rootHints ++ [⟨⟨ascii "."⟩, 20326, 8, 4, List.replicate 48 7⟩]) [⟨⟨ascii "."⟩, 257, 3, 8, [1, 3, 0x4A, 0x5A]⟩] = .ok s :=
  ⟨⟨⟨ascii "."⟩, 48, 8, 0, 3600, 2000000000, 1000000000, 20326, ⟨ascii "."⟩, [1]⟩, by decide +kernel⟩

/-! ## C87 -/

/-- RFC 5011 2.1, 7: the key with the REVOKE bit (bit 8 of the flags) set. -/
def revoke (k : DnsKey) : DnsKey := { k with flags := k.flags ||| 0x80 }

/-- Whether a key is revoked. -/
def Revoked (k : DnsKey) : Prop := k.flags &&& 0x80 ≠ 0

instance (k : DnsKey) : Decidable (Revoked k) := by unfold Revoked; infer_instance

theorem keyTagLoop_add (c : UInt32) (bs : Bytes) : ∀ (i : Nat) (r : UInt32), keyTagLoop i bs (r + c) = keyTagLoop i bs r + c := by
  induction bs with
  | nil => intro i r; simp [keyTagLoop]
  | cons b bs ih =>
    intro i r
    simp only [keyTagLoop]
    split
    · rw [show r + c + (b.toUInt32 <<< (8 : UInt32)) = (r + (b.toUInt32 <<< (8 : UInt32))) + c by ac_rfl, ih]
    · rw [show r + c + b.toUInt32 = (r + b.toUInt32) + c by ac_rfl, ih]

theorem fold_differs (r : UInt32) : ((r + 128 + (((r + 128) >>> (16 : UInt32)) &&& 0xffff)) &&& 0xffff).toUInt16 ≠ ((r + ((r >>> (16 : UInt32)) &&& 0xffff)) &&& 0xffff).toUInt16 := by
  intro h
  have h := congrArg UInt16.toNat h
  have hr := r.toNat_lt
  simp only [UInt32.toNat_toUInt16, UInt32.toNat_and, UInt32.toNat_add, UInt32.toNat_shiftRight, UInt32.toNat_ofNat] at h
  simp only [Nat.reducePow, Nat.reduceMod] at h
  rw [show (65535 : Nat) = 2 ^ 16 - 1 from rfl] at h
  simp only [Nat.and_two_pow_sub_one_eq_mod, Nat.shiftRight_eq_div_pow] at h
  omega

/-- A key and its revoked form have different key tags (RFC 5011 2.1 says they "should"). -/
theorem revoke_tag (k : DnsKey) (h : ¬ Revoked k) : (revoke k).computeKeyTag ≠ k.computeKeyTag := by
  have hf : (k.flags ||| 0x80).toUInt32 = k.flags.toUInt32 + 128 := by
    have h0 : k.flags &&& 0x80 = 0 := by unfold Revoked at h; exact Decidable.not_not.mp h
    have hb : k.flags.toBitVec + 0x80#16 = k.flags.toBitVec ||| 0x80#16 := BitVec.add_eq_or_of_and_eq_zero _ _ (by simpa using congrArg UInt16.toBitVec h0)
    have hn : (k.flags ||| 0x80).toNat = (k.flags + 0x80).toNat := by
      show (k.flags.toBitVec ||| 0x80#16).toNat = (k.flags.toBitVec + 0x80#16).toNat
      rw [hb]
    have hlt : k.flags.toNat + 128 < 65536 := by
      have hor : k.flags.toNat ≤ (k.flags ||| 0x80).toNat := by
        rw [UInt16.toNat_or]; exact Nat.left_le_or
      rw [hn, UInt16.toNat_add] at hor
      have := k.flags.toNat_lt
      simp at hor
      omega
    apply UInt32.toNat_inj.mp
    rw [UInt16.toNat_toUInt32, hn, UInt16.toNat_add, UInt32.toNat_add, UInt16.toNat_toUInt32]
    simp
    omega
  unfold DnsKey.computeKeyTag revoke
  simp only [hf]
  rw [show k.flags.toUInt32 + 128 + (k.protocol.toUInt32 <<< (8 : UInt32)) + k.alg.toUInt32 =
    (k.flags.toUInt32 + (k.protocol.toUInt32 <<< (8 : UInt32)) + k.alg.toUInt32) + 128 by ac_rfl, keyTagLoop_add]
  exact fold_differs _

/-- **C87 (partial).** A DS record that vouches for a key that is not revoked does not vouch for its revoked form, whatever the digest functions: once revoked, a
key no longer establishes a key set through the old DS record (or, for the root, through the built-in trust anchors). Missing: DS records for the revoked form,
and revoked keys in key sets that another key establishes; these are used like other keys. -/
theorem C87_old_anchor_partial (p p' : Platform) (d : DS) (k : DnsKey) (h : ¬ Revoked k) (hv : Vouches p d k) : ¬ Vouches p' d (revoke k) := by
  intro h'
  apply revoke_tag k h
  rw [← UInt16.toNat_inj, keyTag_eq, keyTag_eq]
  exact h'.2.1.symm.trans hv.2.1

/-- The key of the example, and its DS record. -/
example : ¬ Revoked ⟨⟨ascii "c."⟩, 257, 3, 8, [1, 3, 0x4A, 0x5A]⟩ ∧ ∃ d, wDs "c." = .ds d ∧ Vouches wPlatform d ⟨⟨ascii "c."⟩, 257, 3, 8, [1, 3, 0x4A, 0x5A]⟩ :=
  ⟨by decide, _, rfl, by decide +kernel⟩

/-- The key of the examples, revoked. -/
def wRevoked (z : String) : DnsKey := revoke ⟨⟨ascii z⟩, 257, 3, 8, [1, 3, 0x4A, 0x5A]⟩

/-- The keys of `c.` are a new key and a revoked one. The set is signed with the new key; someone who stole the revoked one signs an address. -/
def revokedData : List RR :=
  wZone "." 0 ++ [wDs "c.", wSig "c." 43 1 "."] ++ [wKey "c.", .dnskey (wRevoked "c."), wSig "c." 48 1 "c."] ++
    [wA "x.c.", .rrsig ⟨⟨ascii "x.c."⟩, 1, 8, 2, 3600, 2000000000, 1000000000, 20454, ⟨ascii "c."⟩, [1]⟩]

/-- **C87 is false**: a record signed with nothing but a revoked key is accepted. -/
theorem C87_fails_for_data (dbg : Bool) :
    verifyRRStream dbg wPlatform 5 revokedData = some (.ok ⟨[wA "x.c."], 1000000000, 2000000000, 3600⟩) ∧
    (∀ s, RR.rrsig s ∈ revokedData → s.ty = 1 → s.keyTag = 20454) ∧
    ∀ k, RR.dnskey k ∈ revokedData → k.computeKeyTag = 20454 → Revoked k := by
  refine ⟨by cases dbg <;> decide +kernel, ?_, ?_⟩
  · have : ∀ s ∈ revokedData.filterMap (fun | .rrsig s => some s | _ => none), s.ty = 1 → s.keyTag = 20454 := by decide +kernel
    exact fun s hs => this s (List.mem_filterMap.mpr ⟨_, hs, rfl⟩)
  · have : ∀ k ∈ revokedData.filterMap (fun | .dnskey s => some s | _ => none), k.computeKeyTag = 20454 → Revoked k := by decide +kernel
    exact fun k hk => this k (List.mem_filterMap.mpr ⟨_, hk, rfl⟩)

/-- The only key of `c.` is revoked. -/
def revokedZone : List RR :=
  wZone "." 0 ++ [.ds ⟨⟨ascii "c."⟩, 20454, 8, 2, [7]⟩, wSig "c." 43 1 "."] ++
    [.dnskey (wRevoked "c."), .rrsig ⟨⟨ascii "c."⟩, 48, 8, 1, 3600, 2000000000, 1000000000, 20454, ⟨ascii "c."⟩, [1]⟩] ++
    [wA "x.c.", .rrsig ⟨⟨ascii "x.c."⟩, 1, 8, 2, 3600, 2000000000, 1000000000, 20454, ⟨ascii "c."⟩, [1]⟩]

/-- **C87 is false**: a key set is established by a revoked key, through a DS record for it. -/
theorem C87_fails_for_keys (dbg : Bool) :
    verifyRRStream dbg wPlatform 5 revokedZone = some (.ok ⟨[wA "x.c."], 1000000000, 2000000000, 3600⟩) ∧
    ∀ k, RR.dnskey k ∈ revokedZone → k.name = ⟨ascii "c."⟩ → Revoked k := by
  refine ⟨by cases dbg <;> decide +kernel, ?_⟩
  have : ∀ k ∈ revokedZone.filterMap (fun | .dnskey s => some s | _ => none), k.name = ⟨ascii "c."⟩ → Revoked k := by decide +kernel
  exact fun k hk => this k (List.mem_filterMap.mpr ⟨_, hk, rfl⟩)

end Dnssec.Props
