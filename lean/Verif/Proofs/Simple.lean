import Verif.Props.Termination

/-! # A zone `c.` with any records, each its own RRset and signed once -/

namespace Dnssec

open Spec

def cZone : Name := ⟨ascii "c."⟩

/-- The zone's signature over the record. -/
def cSig (r : RR) : RRSig := ⟨r.name, r.ty, 8, r.name.labels, 3600, 2000000000, 1000000000, 20326, cZone, [1]⟩

/-- The root's keys, and the delegation to `c.`. -/
def cPath : List RR := wZone "." 0 ++ wDelegation "." "c." 1

/-- The records with their signatures. -/
def cSigned (rs : List RR) : List RR := rs.flatMap fun r => [r, .rrsig (cSig r)]

/-- The whole stream. -/
def cStream (rs : List RR) : List RR := cPath ++ cSigned rs

/-- The records are all below `c.` and of ordinary types, at most one per name and type. -/
structure Ordinary (rs : List RR) : Prop where
  below : ∀ r ∈ rs, ∃ pre, r.name.bytes = pre ++ cZone.bytes
  types : ∀ r ∈ rs, r.ty ≠ 43 ∧ r.ty ≠ 46 ∧ r.ty ≠ 47 ∧ r.ty ≠ 48 ∧ r.ty ≠ 50
  single : rs.Pairwise fun r r' => ¬ (r.name = r'.name ∧ r.ty = r'.ty)

def cRootKey : DnsKey := ⟨⟨ascii "."⟩, 257, 3, 8, [1, 3, 0x4A, 0x5A]⟩
def cKey : DnsKey := ⟨cZone, 257, 3, 8, [1, 3, 0x4A, 0x5A]⟩
def cDs : DS := ⟨cZone, 20326, 8, 2, [7]⟩
def cRootSig : RRSig := ⟨⟨ascii "."⟩, 48, 8, 0, 3600, 2000000000, 1000000000, 20326, ⟨ascii "."⟩, [1]⟩
def cDsSig : RRSig := ⟨cZone, 43, 8, 1, 3600, 2000000000, 1000000000, 20326, ⟨ascii "."⟩, [1]⟩
def cKeySig : RRSig := ⟨cZone, 48, 8, 1, 3600, 2000000000, 1000000000, 20326, cZone, [1]⟩

variable {rs : List RR}

theorem mem_cSigned {x : RR} : x ∈ cSigned rs ↔ ∃ r ∈ rs, x = r ∨ x = .rrsig (cSig r) := by
  simp [cSigned, List.mem_flatMap]

theorem mem_cPath {x : RR} : x ∈ cPath ↔ x = .dnskey cRootKey ∨ x = .rrsig cRootSig ∨ x = .ds cDs ∨ x = .rrsig cDsSig ∨
    x = .dnskey cKey ∨ x = .rrsig cKeySig := by
  simp only [cPath, wZone, wDelegation, List.cons_append, List.nil_append, List.mem_cons, List.not_mem_nil, or_false]
  rfl

theorem Ordinary.tail {r : RR} (h : Ordinary (r :: rs)) : Ordinary rs :=
  ⟨fun x hx => h.below x (by simp [hx]), fun x hx => h.types x (by simp [hx]), (List.pairwise_cons.mp h.single).2⟩

theorem cSigned_filterMap_none {β : Type} (g : RR → Option β) (h1 : ∀ r ∈ rs, g r = none) (h2 : ∀ r ∈ rs, g (.rrsig (cSig r)) = none) :
    (cSigned rs).filterMap g = [] := by
  refine filterMap_none _ _ fun a ha => ?_
  obtain ⟨r, hr, rfl | rfl⟩ := mem_cSigned.mp ha
  · exact h1 a hr
  · exact h2 r hr

theorem c_keysAt (h : Ordinary rs) (z : Name) : keysAt (cStream rs) z = keysAt cPath z := by
  unfold keysAt cStream
  rw [List.filterMap_append, cSigned_filterMap_none, List.append_nil]
  · intro r hr
    have := (h.types r hr).2.2.2.1
    cases r <;> first | rfl | exact absurd rfl this
  · intro r _; rfl

theorem c_dsAt (h : Ordinary rs) (z : Name) : dsAt (cStream rs) z = dsAt cPath z := by
  unfold dsAt cStream
  rw [List.filterMap_append, cSigned_filterMap_none, List.append_nil]
  · intro r hr
    have := (h.types r hr).1
    cases r <;> first | rfl | exact absurd rfl this
  · intro r _; rfl

theorem c_keySigs (h : Ordinary rs) (z : Name) : keySigs (cStream rs) z = keySigs cPath z := by
  unfold keySigs cStream
  rw [List.filterMap_append, cSigned_filterMap_none, List.append_nil]
  · intro r hr
    have := (h.types r hr).2.1
    cases r <;> first | rfl | exact absurd rfl this
  · intro r hr
    exact if_neg (fun e => (h.types r hr).2.2.2.1 e.2)

theorem c_anchors (h : Ordinary rs) (z : Name) : anchors (cStream rs) z = anchors cPath z := by
  unfold anchors; rw [c_dsAt h]

theorem c_sigs (h : Ordinary rs) {z : Name} {s : RRSig} (hs : s ∈ sigsBy (cStream rs) z) :
    (s = cDsSig ∧ z = rootName) ∨ (z = cZone ∧ ∃ r ∈ rs, s = cSig r) := by
  obtain ⟨h1, h2, h3⟩ := mem_sigsBy.mp hs
  rcases List.mem_append.mp h1 with h1 | h1
  · rcases mem_cPath.mp h1 with h1 | h1 | h1 | h1 | h1 | h1
    all_goals first
      | (simp only [reduceCtorEq] at h1; done)
      | (simp only [RR.rrsig.injEq] at h1; subst h1
         first
           | exact absurd rfl h3
           | exact .inl ⟨rfl, h2.symm⟩)
  · obtain ⟨r, hr, e | e⟩ := mem_cSigned.mp h1
    · exact absurd (by rw [← e]; rfl) (h.types r hr).2.1
    · simp only [RR.rrsig.injEq] at e
      subst e
      exact .inr ⟨h2.symm, r, hr, rfl⟩

theorem c_sig_mem (h : Ordinary rs) {r : RR} (hr : r ∈ rs) : cSig r ∈ sigsBy (cStream rs) cZone :=
  mem_sigsBy.mpr ⟨List.mem_append_right _ (mem_cSigned.mpr ⟨r, hr, .inr rfl⟩), rfl, (h.types r hr).2.2.2.1⟩

theorem c_rrset_path {n : Name} {ty : UInt16} (h : ty ≠ 43 ∧ ty ≠ 46 ∧ ty ≠ 48) : rrset cPath n ty = [] := by
  unfold rrset
  rw [List.filter_eq_nil_iff]
  intro x hx
  simp only [decide_eq_true_eq]
  rintro ⟨_, e⟩
  rcases mem_cPath.mp hx with rfl | rfl | rfl | rfl | rfl | rfl
  all_goals first
    | exact h.1 e.symm
    | exact h.2.1 e.symm
    | exact h.2.2 e.symm

theorem c_rrset_signed {n : Name} {ty : UInt16} (h46 : ty ≠ 46) : rrset (cSigned rs) n ty = rrset rs n ty := by
  induction rs with
  | nil => rfl
  | cons r rs ih =>
    have e : cSigned (r :: rs) = r :: .rrsig (cSig r) :: cSigned rs := rfl
    rw [e]
    unfold rrset at ih ⊢
    rw [List.filter_cons, List.filter_cons_of_neg (by
      simp only [decide_eq_true_eq]
      rintro ⟨_, e⟩
      exact h46 e.symm), List.filter_cons, ih]

theorem c_rrset_single (h : Ordinary rs) {r : RR} (hr : r ∈ rs) : rrset rs r.name r.ty = [r] := by
  induction rs with
  | nil => exact absurd hr (by simp)
  | cons x rs ih =>
    unfold rrset at ih ⊢
    have hp := List.pairwise_cons.mp h.single
    rcases List.mem_cons.mp hr with rfl | hr
    · rw [List.filter_cons_of_pos (by simp)]
      congr 1
      rw [List.filter_eq_nil_iff]
      intro y hy
      simp only [decide_eq_true_eq]
      exact fun e => hp.1 y hy ⟨e.1.symm, e.2.symm⟩
    · rw [List.filter_cons_of_neg (by
        simp only [decide_eq_true_eq]
        exact fun e => hp.1 r hr e)]
      exact ih h.tail hr

theorem c_rrset (h : Ordinary rs) {r : RR} (hr : r ∈ rs) : rrset (cStream rs) r.name r.ty = [r] := by
  have ht := h.types r hr
  have : rrset (cStream rs) r.name r.ty = rrset cPath r.name r.ty ++ rrset (cSigned rs) r.name r.ty := by
    simp [rrset, cStream]
  rw [this, c_rrset_path ⟨ht.1, ht.2.1, ht.2.2.2.1⟩, c_rrset_signed ht.2.1, c_rrset_single h hr, List.nil_append]

theorem c_rrset_ds (h : Ordinary rs) : rrset (cStream rs) cZone 43 = [.ds cDs] := by
  rw [rrset_ds, c_dsAt h]
  decide +kernel

/-- The zone's key verifies the signature of any record. -/
theorem c_good (r : RR) : verifyRrsig wPlatform (cSig r) [cKey] [r] = .ok () := by
  rw [verifyRrsig_ok_iff]
  have hm : ∃ msg, signedData (cSig r) [r] = some msg := by
    unfold signedData
    simp only [sortBy, insertBy, signedRecords, signedOwner, cSig, ne_eq, not_true_eq_false, and_false, if_false]
    exact ⟨_, rfl⟩
  obtain ⟨msg, hm⟩ := hm
  have htag : (20326 : UInt16).toNat = keyTag (rdata (.dnskey cKey)) := by decide +kernel
  refine ⟨by simp [cSig], cKey, msg, ⟨[], [], rfl, ⟨htag, rfl, ?_, rfl⟩, by simp⟩, hm, ?_⟩
  · exact show (257 : UInt16).toNat.testBit 8 = true by decide
  · exact .rsaSha256 [0x4A, 0x5A] [3] rfl (show 3 < [(1 : UInt8), 3, 0x4A, 0x5A].length by decide)
      (.short 1 [3] [0x4A, 0x5A] (by decide) rfl) (by decide) rfl

theorem c_rootKeys (h : Ordinary rs) : ZoneKeysOk (codeCheck wPlatform) wPlatform (cStream rs) rootName cRootSig := by
  unfold ZoneKeysOk
  rw [c_keySigs h, c_anchors h, c_keysAt h, ← verifyDnskeys_ok_iff]
  decide +kernel

theorem c_zoneKeys (h : Ordinary rs) : ZoneKeysOk (codeCheck wPlatform) wPlatform (cStream rs) cZone cKeySig := by
  unfold ZoneKeysOk
  rw [c_keySigs h, c_anchors h, c_keysAt h, ← verifyDnskeys_ok_iff]
  decide +kernel

theorem c_signs (h : Ordinary rs) {r : RR} (hr : r ∈ rs) : SignedBy (codeCheck wPlatform) (cStream rs) cZone (cSig r) := by
  refine ⟨c_sig_mem h hr, ?_⟩
  have e : keysAt (cStream rs) cZone = [cKey] := by rw [c_keysAt h]; decide +kernel
  have e2 : rrset (cStream rs) (cSig r).name (cSig r).ty = [r] := c_rrset h hr
  rw [e, e2]
  exact c_good r

theorem c_signsDs (h : Ordinary rs) : SignedBy (codeCheck wPlatform) (cStream rs) rootName cDsSig := by
  refine ⟨mem_sigsBy.mpr ⟨List.mem_append_left _ (mem_cPath.mpr (by simp)), rfl, by decide⟩, ?_⟩
  have e2 : rrset (cStream rs) cDsSig.name cDsSig.ty = [.ds cDs] := c_rrset_ds h
  rw [c_keysAt h, e2]
  show verifyRrsig _ _ _ _ = _
  decide +kernel

theorem c_reached (h : Ordinary rs) {z : Name} (hz : Reached (codeCheck wPlatform) wPlatform (cStream rs) z) :
    z = rootName ∨ z = cZone := by
  cases hz with
  | root => exact .inl rfl
  | delegated z ksig sig _ _ hs ht =>
    rcases c_sigs h hs.1 with ⟨rfl, _⟩ | ⟨_, r, hr, rfl⟩
    · exact .inr rfl
    · exact absurd ht (h.types r hr).1

theorem c_reached_c (h : Ordinary rs) : Reached (codeCheck wPlatform) wPlatform (cStream rs) cZone :=
  .delegated rootName cRootSig cDsSig .root (c_rootKeys h) (c_signsDs h) rfl

theorem c_window {s : RRSig} (h : Ordinary rs) (hu : Used (codeCheck wPlatform) wPlatform (cStream rs) s) :
    s.inception = 1000000000 ∧ s.expiration = 2000000000 := by
  obtain ⟨z, _, hs | hs⟩ := hu
  · obtain ⟨_, before, after, e, _⟩ := hs
    have hm : s ∈ keySigs (cStream rs) z := by rw [e]; simp
    rw [c_keySigs h] at hm
    obtain ⟨x, hx, he⟩ := List.mem_filterMap.mp hm
    rcases mem_cPath.mp hx with rfl | rfl | rfl | rfl | rfl | rfl
    all_goals first
      | (simp only [reduceCtorEq] at he; done)
      | (simp only at he
         split at he
         · simp only [Option.some.injEq] at he; subst he; exact ⟨rfl, rfl⟩
         · exact absurd he (by simp))
  · rcases c_sigs h hs.1 with ⟨rfl, _⟩ | ⟨_, r, hr, rfl⟩ <;> exact ⟨rfl, rfl⟩

theorem c_not_expanded (h : Ordinary rs) {z : Name} {s : RRSig} (hs : s ∈ sigsBy (cStream rs) z) (h43 : s.ty ≠ 43) : ¬ Expanded s := by
  rcases c_sigs h hs with ⟨rfl, _⟩ | ⟨_, r, hr, rfl⟩
  · exact absurd rfl h43
  · exact fun e => e.1 rfl

/-- The stream is accepted. -/
theorem c_accepted (h : Ordinary rs) (hne : rs ≠ []) (dbg : Bool) :
    ∃ fuel v, verifyRRStream dbg wPlatform fuel (cStream rs) = some (.ok v) := by
  refine Props.C56_complete ?_ ⟨cDsSig, c_signsDs h, rfl⟩ ?_ ?_ ?_ ?_
  · intro z hz
    refine ⟨?_, ?_⟩
    · rcases c_reached h hz with rfl | rfl
      · exact ⟨_, c_rootKeys h⟩
      · exact ⟨_, c_zoneKeys h⟩
    · intro s hs
      rcases c_sigs h hs with ⟨rfl, rfl⟩ | ⟨rfl, r, hr, rfl⟩
      · exact ⟨⟨ascii "c", by decide⟩, .inr ⟨c_signsDs h, by decide, fun e => absurd rfl e⟩⟩
      · exact ⟨h.below r hr, .inr ⟨c_signs h hr, (h.types r hr).2.1, fun _ e => absurd rfl e.1⟩⟩
  · rintro ⟨z, hz, s, hs, ht, hn⟩
    rcases c_sigs h hs.1 with ⟨rfl, rfl⟩ | ⟨rfl, r, hr, rfl⟩
    · exact absurd hn (by decide)
    · exact absurd ht (h.types r hr).1
  · obtain ⟨r, hr⟩ := List.exists_mem_of_ne_nil _ hne
    exact ⟨r, ⟨cZone, cKeySig, cSig r, c_reached_c h, c_zoneKeys h, c_signs h hr,
      List.mem_append_right _ (mem_cSigned.mpr ⟨r, hr, .inl rfl⟩), rfl, rfl⟩, (h.types r hr).1⟩
  · intro s t hs ht
    rw [(c_window h hs).1, (c_window h ht).2]
    decide
  · intro z s _ hs h43 he
    exact absurd he (c_not_expanded h hs.1 h43)

/-- It yields exactly the records of `c.`. -/
theorem c_verified (h : Ordinary rs) {dbg : Bool} {fuel : Nat} {v : Verified}
    (hv : verifyRRStream dbg wPlatform fuel (cStream rs) = some (.ok v)) (r : RR) : r ∈ v.verifiedRrs ↔ r ∈ rs := by
  rw [Props.C27_exact hv]
  constructor
  · rintro ⟨⟨z, ksig, sig, _, _, hs, hr, hn, ht⟩, h43, _, _⟩
    rcases c_sigs h hs.1 with ⟨rfl, _⟩ | ⟨_, r', hr', rfl⟩
    · exact absurd ht h43
    · have : r ∈ rrset (cStream rs) r'.name r'.ty := mem_rrset.mpr ⟨hr, hn, ht⟩
      rw [c_rrset h hr'] at this
      rw [List.mem_singleton.mp this]
      exact hr'
  · intro hr
    have ht := h.types r hr
    exact ⟨⟨cZone, cKeySig, cSig r, c_reached_c h, c_zoneKeys h, c_signs h hr,
      List.mem_append_right _ (mem_cSigned.mpr ⟨r, hr, .inl rfl⟩), rfl, rfl⟩, ht.1, ht.2.2.1, ht.2.2.2.2⟩

end Dnssec
