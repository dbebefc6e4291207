import Verif.Spec.RootKeys
import Verif.Props.KeyTags
import Verif.Props.Keys

/-! # C106: the keys of the root over time -/

namespace Dnssec.Props

open Dnssec Dnssec.Spec

variable {dbg : Bool} {p : Platform} {fuel : Nat} {inp : List RR} {v : Verified} {z : Name} {t : Nat}

private theorem anchored_iana (k : DnsKey) : Anchored p ianaAnchors k ↔
    Vouches p ⟨rootName, 19036, 8, 2, unhex (ascii "49AAC11D7B6F6446702E54A1607371607A1A41855200FD2CE1CDDE32F24E8FB5")⟩ k ∨
    Vouches p ⟨rootName, 20326, 8, 2, unhex (ascii "E06D44B80B8F1D39A95C0B0D7C65D08458E880409BBC683457104237C7F8EC8D")⟩ k := by
  simp [Anchored, ianaAnchors]

/-- **C106 (partial).** From 2017-02-02 until 2019-01-11 the keys of the root that are trusted are exactly those IANA published. Missing: other times,
for which it is false. -/
theorem C106_trusted_iff_partial (h1 : 1485993600 ≤ t) (h2 : t < 1547164800) (k : DnsKey) : Anchored p ianaAnchors k ↔ PublishedAt p t k := by
  rw [anchored_iana]
  simp only [PublishedAt, rootAnchorsXml, List.mem_cons, List.not_mem_nil, or_false, exists_eq_or_imp, exists_eq_left]
  constructor
  · rintro (h | h)
    · exact Or.inl ⟨by omega, by intro u e; cases e; omega, h⟩
    · exact Or.inr (Or.inl ⟨h1, (by intro u e; cases e), h⟩)
  · rintro (⟨_, _, h⟩ | ⟨_, _, h⟩ | ⟨h, _⟩)
    · exact Or.inl h
    · exact Or.inr h
    · omega

/-- **C106 (partial).** From 2017-02-02 until 2024-07-18 the keys that IANA published are trusted. -/
theorem C106_published_trusted_partial (h1 : 1485993600 ≤ t) (h2 : t < 1721260800) {k : DnsKey} (h : PublishedAt p t k) :
    Anchored p ianaAnchors k := by
  rw [anchored_iana]
  simp only [PublishedAt, rootAnchorsXml, List.mem_cons, List.not_mem_nil, or_false, exists_eq_or_imp, exists_eq_left] at h
  rcases h with ⟨_, _, h⟩ | ⟨_, _, h⟩ | ⟨h, _⟩
  · exact Or.inl h
  · exact Or.inr h
  · omega

/-- **C106.** With a key set of the root that is signed with such keys (at most one of which matches each signature), at any of these times, the
root is established, whichever signature comes first. -/
theorem C106_root_established_partial (h1 : 1485993600 ≤ t) (h2 : t < 1721260800) (hne : keySigs inp rootName ≠ [])
    (hs : ∀ s ∈ keySigs inp rootName, ∃ k ∈ keysAt inp rootName, PublishedAt p t k ∧
      MadeBy (codeCheck p) s k ((keysAt inp rootName).map .dnskey) ∧
      ∀ k' ∈ keysAt inp rootName, Eligible s k' → k' = k) : ∃ s, ZoneKeysOk (codeCheck p) p inp rootName s := by
  cases hl : keySigs inp rootName with
  | nil => exact absurd hl hne
  | cons s rest =>
    obtain ⟨k, hk, hp, hm, hu⟩ := hs s (by rw [hl]; exact List.mem_cons_self ..)
    have ha : Anchored p (anchors inp rootName) k := by
      rw [anchors, if_pos rfl]
      exact C106_published_trusted_partial h1 h2 hp
    exact ⟨s, C105_key_set_partial hl hk ha hm (fun k' hk' _ he => hu k' hk' he)⟩

/-- **C106 is false** for keys that IANA publishes and that are not built in, such as the one of 2024: if the key set of the root is
not signed with one of the keys of 2010 and 2017, every proof is rejected. -/
theorem C106_fails_successor
    (h : ∀ s ∈ keySigs inp rootName, ∀ k ∈ keysAt inp rootName, MadeBy (codeCheck p) s k ((keysAt inp rootName).map .dnskey) →
      keyTag (rdata (.dnskey k)) ≠ 19036 ∧ keyTag (rdata (.dnskey k)) ≠ 20326) :
    verifyRRStream dbg p fuel inp ≠ some (.ok v) := by
  refine C26_bad_key_set rootName .root ?_
  rintro ksig ⟨_, before, after, e, _, hg⟩
  obtain ⟨h1, k, msg, hf, h2⟩ := (verifyRrsig_ok_iff p ksig _ _).mp hg
  have hf' := hf
  obtain ⟨pre, post, e', he, _⟩ := hf
  have hk : k ∈ anchoredKeys p (anchors inp rootName) (keysAt inp rootName) := by rw [e']; simp
  obtain ⟨hk1, hk2⟩ := List.mem_filter.mp hk
  have ha : Anchored p ianaAnchors k := by
    rw [anchors, if_pos rfl] at hk2
    simpa using hk2
  have hm : MadeBy (codeCheck p) ksig k ((keysAt inp rootName).map .dnskey) :=
    (verifyRrsig_ok_iff p ksig _ _).mpr ⟨h1, k, msg, ⟨[], [], rfl, he, by simp⟩, h2⟩
  obtain ⟨n1, n2⟩ := h ksig (by rw [e]; simp) k hk1 hm
  rcases (anchored_iana k).mp ha with hv | hv
  · exact n1 hv.2.1.symm
  · exact n2 hv.2.1.symm

/-- **C106 is false** while a key is revoked as RFC 5011 section 2.1 prescribes, that is, with a signature by the revoked key over the
key set: wherever (the root, or a zone with DS records for both keys) that signature comes first, the key set is not established and every
proof is rejected, whatever other signatures there are. -/
theorem C106_fails_revoked_first (hz : Reached (codeCheck p) p inp z) {k : DnsKey} {s : RRSig} {rest : List RRSig}
    (hl : keySigs inp z = s :: rest) (hm : MadeBy (codeCheck p) s (revoke k) ((keysAt inp z).map .dnskey))
    (hno : ∀ d ∈ anchors inp z, d.keyTag.toNat ≠ keyTag (rdata (.dnskey (revoke k)))) : verifyRRStream dbg p fuel inp ≠ some (.ok v) := by
  have hel : Eligible s (revoke k) := by
    obtain ⟨_, k', msg, ⟨pre, post, e, he, _⟩, _⟩ := (verifyRrsig_ok_iff p s [revoke k] _).mp hm
    cases pre with
    | nil => simp at e; rw [e.1]; exact he
    | cons x xs => simp at e
  have hnone : ∀ k' ∈ anchoredKeys p (anchors inp z) (keysAt inp z), ¬ Eligible s k' := by
    intro k' hk' he
    obtain ⟨_, hk2⟩ := List.mem_filter.mp hk'
    obtain ⟨d, hd, hv, _⟩ : Anchored p (anchors inp z) k' := by simpa using hk2
    exact hno d hd (hv.2.1.trans (he.tag.symm.trans hel.tag))
  refine C26_bad_key_set z hz ?_
  rintro ksig ⟨_, before, after, e, hb, hg⟩
  cases before with
  | nil =>
    rw [hl] at e
    simp only [List.nil_append, List.cons.injEq] at e
    obtain ⟨_, k', _, ⟨pre, post, e', he, _⟩, _⟩ := (verifyRrsig_ok_iff p ksig _ _).mp hg
    rw [← e.1] at he
    exact hnone k' (by rw [e']; simp) he
  | cons b bs =>
    rw [hl] at e
    simp only [List.cons_append, List.cons.injEq] at e
    obtain ⟨_, ⟨k', hk', he⟩, _⟩ := (verifyRrsig_unsupported_iff p b _ _).mp (hb b (List.mem_cons_self ..))
    rw [← e.1] at he
    exact hnone k' hk' he

/-! ## Examples -/

/-- The digest of the anchor of 2010. -/
def oldDigest : Bytes := unhex (ascii "49AAC11D7B6F6446702E54A1607371607A1A41855200FD2CE1CDDE32F24E8FB5")

/-- Like the toy platform of the other examples, but the keys of the root have the digest of 2010. -/
def oldPlatform : Platform :=
  testPlatform (fun b => (b.drop 1).take 1 ++ List.replicate 19 0) (fun b => if b.take 1 = [0] then oldDigest else [7])
    (fun _ _ _ sig => decide (sig = [1]))

/-- The key of 2010, and a signature made with it in 2026, or with a zone signing key of the root. -/
def oldKey : DnsKey := ⟨⟨ascii "."⟩, 257, 3, 8, [1, 3, 0x45, 0x50]⟩
def lateSig (n : String) (ty : UInt16) (labels : UInt8) (tag : UInt16) (z : String) : RR :=
  .rrsig ⟨⟨ascii n⟩, ty, 8, labels, 3600, 1800000000, 1790000000, tag, ⟨ascii z⟩, [1]⟩

/-- A proof made with the key of 2010. -/
def lateStream : List RR :=
  [.dnskey oldKey, wKey ".", lateSig "." 48 0 19036 ".", wDs "c.", lateSig "c." 43 1 20326 ".", wKey "c.", lateSig "c." 48 1 20326 "c.",
   wA "a.c.", lateSig "a.c." 1 2 20326 "c."]

/-- **C106 is false** for keys that are no longer valid: a proof made years after the end of the validity of the key of 2010, by
someone who has this key and no other key IANA has published an anchor for, is accepted. -/
theorem C106_fails_retired (dbg : Bool) :
    verifyRRStream dbg oldPlatform 5 lateStream = some (.ok ⟨[wA "a.c."], 1790000000, 1800000000, 3600⟩) ∧
    ∀ t, 1790000000 ≤ t → ∀ k, RR.dnskey k ∈ lateStream → k.name = rootName → ¬ PublishedAt oldPlatform t k := by
  refine ⟨by cases dbg <;> decide +kernel, ?_⟩
  intro t ht k hk hn
  have h : ∀ k ∈ lateStream.filterMap (fun | .dnskey s => some s | _ => none), k.name = rootName →
      ∀ a ∈ rootAnchorsXml.tail, ¬ Vouches oldPlatform a.ds k := by decide +kernel
  have h' := h k (List.mem_filterMap.mpr ⟨_, hk, rfl⟩) hn
  rintro ⟨a, ha, _, hu, hv⟩
  rw [rootAnchorsXml] at ha
  rcases List.mem_cons.mp ha with rfl | ha
  · have := hu 1547164800 rfl
    omega
  · exact h' a ha hv

/-- The digest of the anchor of 2024, a platform on which the keys of the root have it, and a key with the tag of that anchor. -/
def newDigest : Bytes := unhex (ascii "683D2D0ACB8C9B712A1948B27F741219298D0A450D612C483AF444A4C0FB2B16")
def newPlatform : Platform :=
  testPlatform (fun b => (b.drop 1).take 1 ++ List.replicate 19 0) (fun b => if b.take 1 = [0] then newDigest else [7])
    (fun _ _ _ sig => decide (sig = [1]))
def newKey : DnsKey := ⟨⟨ascii "."⟩, 257, 3, 8, [1, 3, 0x92, 0x1C]⟩
def newStream : List RR :=
  [.dnskey newKey, wKey ".", lateSig "." 48 0 38696 ".", wDs "c.", lateSig "c." 43 1 20326 ".", wKey "c.", lateSig "c." 48 1 20326 "c.",
   wA "a.c.", lateSig "a.c." 1 2 20326 "c."]

/-- A proof made with the key of 2024, for which IANA publishes an anchor: the conditions of `C106_fails_successor` hold, and the proof is rejected. -/
example : PublishedAt newPlatform 1795000000 newKey ∧
    (∀ s ∈ keySigs newStream rootName, verifyRrsig newPlatform s [newKey] ((keysAt newStream rootName).map .dnskey) = .ok ()) ∧
    (∀ s ∈ keySigs newStream rootName, ∀ k ∈ keysAt newStream rootName,
      verifyRrsig newPlatform s [k] ((keysAt newStream rootName).map .dnskey) = .ok () →
      keyTag (rdata (.dnskey k)) ≠ 19036 ∧ keyTag (rdata (.dnskey k)) ≠ 20326) ∧
    verifyRRStream false newPlatform 5 newStream = some (.err .invalid) := by
  refine ⟨⟨⟨⟨rootName, 38696, 8, 2, newDigest⟩, 1721260800, none⟩, by simp [rootAnchorsXml, newDigest], by decide, by simp, by decide +kernel⟩, ?_, ?_, ?_⟩ <;>
    decide +kernel

/-- The proof of the other examples is made with the key of 2017, as `C106_root_established_partial` asks. -/
example : keySigs wStream rootName ≠ [] ∧ ∀ s ∈ keySigs wStream rootName, ∃ k ∈ keysAt wStream rootName, PublishedAt wPlatform 1700000000 k ∧
    MadeBy (codeCheck wPlatform) s k ((keysAt wStream rootName).map .dnskey) ∧ ∀ k' ∈ keysAt wStream rootName, Eligible s k' → k' = k := by
  refine ⟨by decide +kernel, fun s hs => ⟨⟨rootName, 257, 3, 8, [1, 3, 0x4A, 0x5A]⟩, by decide +kernel, ?_, ?_, ?_⟩⟩
  · refine ⟨⟨⟨rootName, 20326, 8, 2, unhex (ascii "E06D44B80B8F1D39A95C0B0D7C65D08458E880409BBC683457104237C7F8EC8D")⟩, 1485993600, none⟩,
      by simp [rootAnchorsXml], by decide, by simp, by decide +kernel⟩
  · have : ∀ s ∈ keySigs wStream rootName, verifyRrsig wPlatform s [⟨rootName, 257, 3, 8, [1, 3, 0x4A, 0x5A]⟩]
      ((keysAt wStream rootName).map .dnskey) = .ok () := by decide +kernel
    exact this s hs
  · have : ∀ k' ∈ keysAt wStream rootName, k' = ⟨rootName, 257, 3, 8, [1, 3, 0x4A, 0x5A]⟩ := by decide +kernel
    exact fun k' hk' _ => this k' hk'

/-- A zone `c.` that revokes a key: DS records for the old and the new key, both in the key set (the old one revoked), both signing it. -/
def revokingStream (sigs : List RR) : List RR :=
  wZone "." 0 ++ [wDs "c.", .ds ⟨⟨ascii "c."⟩, rK'.computeKeyTag, 8, 2, [7]⟩, wSig "c." 43 1 "."] ++ [.dnskey (revoke rK), .dnskey rK'] ++ sigs ++
    [wA "a.c.", rSig rK' "a.c." 1 2]

/-- The conditions of `C106_fails_revoked_first` hold if the signature by the revoked key comes first; with the signatures in the other order
the proof is accepted. -/
theorem C106_fails_revoking (dbg : Bool) :
    verifyRRStream dbg wPlatform 5 (revokingStream [rSig rK' "c." 48 1, rSig (revoke rK) "c." 48 1]) =
      some (.ok ⟨[wA "a.c."], 1000000000, 2000000000, 3600⟩) ∧
    verifyRRStream dbg wPlatform 5 (revokingStream [rSig (revoke rK) "c." 48 1, rSig rK' "c." 48 1]) = some (.err .invalid) ∧
    (∃ s rest, keySigs (revokingStream [rSig (revoke rK) "c." 48 1, rSig rK' "c." 48 1]) ⟨ascii "c."⟩ = s :: rest ∧
      MadeBy (codeCheck wPlatform) s (revoke rK)
        ((keysAt (revokingStream [rSig (revoke rK) "c." 48 1, rSig rK' "c." 48 1]) ⟨ascii "c."⟩).map .dnskey)) ∧
    ∀ d ∈ anchors (revokingStream [rSig (revoke rK) "c." 48 1, rSig rK' "c." 48 1]) ⟨ascii "c."⟩,
      d.keyTag.toNat ≠ keyTag (rdata (.dnskey (revoke rK))) := by
  refine ⟨by cases dbg <;> decide +kernel, by cases dbg <;> decide +kernel, ?_, by decide +kernel⟩
  refine ⟨⟨⟨ascii "c."⟩, 48, 8, 1, 3600, 2000000000, 1000000000, (revoke rK).computeKeyTag, ⟨ascii "c."⟩, [1]⟩,
    [⟨⟨ascii "c."⟩, 48, 8, 1, 3600, 2000000000, 1000000000, rK'.computeKeyTag, ⟨ascii "c."⟩, [1]⟩], by decide +kernel, ?_⟩
  simp only [MadeBy, codeCheck]
  decide +kernel

end Dnssec.Props
