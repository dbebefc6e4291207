import Verif.Proofs.Combine
import Verif.Props.Relevant

/-! # C76: combining proofs -/

namespace Dnssec.Props

open Dnssec Spec

variable {dbg : Bool} {p : Platform} {parts : List (List RR)} {m : List RR}

/-- **C76.** Proofs that are accepted can be combined into one that is accepted, and whose result is that of all of them together: the records
of all, the latest `valid_from`, the earliest `expires` and the least TTL. Conditions: the combination has the signatures of all proofs, and
for each of these signatures the same records as the proof it is from; the proofs have no stray signatures; they are valid at a common moment; and
the combination meets the conditions of C36. Missing: combinations by plain concatenation, proofs that bring unsigned
records or stray signatures, refuted below, and those C36 excludes. -/
theorem C76_combined_partial {res : List RR → Verified} (hne : parts ≠ []) (hm : Combines parts m)
    (hv : ∀ a ∈ parts, ∃ fuel, verifyRRStream dbg p fuel a = some (.ok (res a))) (hstray : ∀ a ∈ parts, NoStraySigs p a)
    (htime : ∃ t, ∀ a ∈ parts, (res a).validFrom ≤ t ∧ t < (res a).expires)
    (hT : NoTagCollision m) (hK : KeySigsAgree (codeCheck p) p m) (hS : SameKeyTimes m) (hu : UniformDenials (codeCheck p) p m) :
    ∃ fuel v, verifyRRStream dbg p fuel m = some (.ok v) ∧
      (∀ r, r ∈ v.verifiedRrs ↔ ∃ a ∈ parts, r ∈ (res a).verifiedRrs) ∧
      IsMaxOf (· ∈ parts) (fun a => (res a).validFrom) v.validFrom ∧
      IsMinOf (· ∈ parts) (fun a => (res a).expires) v.expires ∧
      IsMinOf (· ∈ parts) (fun a => (res a).maxCacheTtl.toNat) v.maxCacheTtl.toNat := by
  have needs : ∀ a ∈ parts, _ := fun a ha => verifyRRStream_ok_needs (hv a ha).choose_spec
  have H : Parts dbg p parts m := ⟨hm, hT, hK, hS, fun a ha => (needs a ha).1, hstray⟩
  obtain ⟨a0, ha0⟩ := List.exists_mem_of_ne_nil _ hne
  obtain ⟨_, hroot, _, ⟨r0, hr0, hr0'⟩, _⟩ := needs a0 ha0
  have win : ∀ a ∈ parts, _ := fun a ha => C24_window (hv a ha).choose_spec
  obtain ⟨fuel, v, hok⟩ : ∃ fuel v, verifyRRStream dbg p fuel m = some (.ok v) := by
    refine verifyRRStream_accepts' (H.isClean hne) ?_ ?_ ⟨r0, (H.authenticated hne r0).mpr ⟨a0, ha0, hr0⟩, hr0'⟩ ?_ ?_
    · obtain ⟨s, hs, ht⟩ := hroot
      exact ⟨s, (H.signedBy _ s).mpr ⟨a0, ha0, .root, hs⟩, ht⟩
    · rintro ⟨z, _, s, hs, ht, hn⟩
      obtain ⟨b, hb, hzb, hsb⟩ := (H.signedBy z s).mp hs
      exact (needs b hb).2.2.1 ⟨z, hzb, s, hsb, ht, hn⟩
    · intro s t hs ht
      obtain ⟨a, ha, s', hs, es, _⟩ := H.used hne hs
      obtain ⟨b, hb, t', ht, _, et, _⟩ := H.used hne ht
      rw [es, et]
      obtain ⟨t0, h0⟩ := htime
      have e1 := (win a ha).1.2 s' hs
      have e2 := (win b hb).2.1.2 t' ht
      have e3 := h0 a ha
      have e4 := h0 b hb
      simp only at e1 e2
      omega
    · exact H.denied hne hu fun a ha => wildcardsDenied_of_ok (H.uniform hne ha hu) (hv a ha).choose_spec
  refine ⟨fuel, v, hok, ?_, ?_, ?_, ?_⟩
  · intro r
    rw [C27_exact hok, H.authenticated hne]
    constructor
    · rintro ⟨⟨a, ha, h⟩, h'⟩
      exact ⟨a, ha, (C27_exact (hv a ha).choose_spec r).mpr ⟨h, h'⟩⟩
    · rintro ⟨a, ha, h⟩
      obtain ⟨x, y⟩ := (C27_exact (hv a ha).choose_spec r).mp h
      exact ⟨⟨a, ha, x⟩, y⟩
  · obtain ⟨⟨s, hs, e⟩, hmax⟩ := (C24_window hok).1
    obtain ⟨a, ha, s', hs, es, _⟩ := H.used hne hs
    have hle : ∀ a ∈ parts, (res a).validFrom ≤ v.validFrom := by
      intro a ha
      obtain ⟨t, ht, et⟩ := (win a ha).1.1
      obtain ⟨t', ht', e', _⟩ := H.used_of hne ha ht
      simp only [e'] at et
      rw [← et]
      exact hmax t' ht'
    simp only [es] at e
    exact ⟨⟨a, ha, Nat.le_antisymm (hle a ha) (e ▸ (win a ha).1.2 s' hs)⟩, hle⟩
  · obtain ⟨⟨s, hs, e⟩, hmin⟩ := (C24_window hok).2.1
    obtain ⟨a, ha, s', hs, _, es, _⟩ := H.used hne hs
    have hle : ∀ a ∈ parts, v.expires ≤ (res a).expires := by
      intro a ha
      obtain ⟨t, ht, et⟩ := (win a ha).2.1.1
      obtain ⟨t', ht', _, e', _⟩ := H.used_of hne ha ht
      simp only [e'] at et
      rw [← et]
      exact hmin t' ht'
    simp only [es] at e
    exact ⟨⟨a, ha, Nat.le_antisymm (e ▸ (win a ha).2.1.2 s' hs) (hle a ha)⟩, hle⟩
  · have ttl : ∀ a ∈ parts, _ := fun a ha => C25_ttl (hv a ha).choose_spec
    obtain ⟨⟨s, hs, e⟩, hmin⟩ := C25_ttl hok
    obtain ⟨a, ha, s', hs, _, _, es⟩ := H.used hne hs
    have hle : ∀ a ∈ parts, v.maxCacheTtl.toNat ≤ (res a).maxCacheTtl.toNat := by
      intro a ha
      obtain ⟨t, ht, et⟩ := (ttl a ha).1
      obtain ⟨t', ht', _, _, e'⟩ := H.used_of hne ha ht
      simp only [e'] at et
      rw [← et]
      exact hmin t' ht'
    simp only [es] at e
    exact ⟨⟨a, ha, Nat.le_antisymm (e ▸ (ttl a ha).2 s' hs) (hle a ha)⟩, hle⟩

/-- Two proofs, of `a.c.` (valid from 1000000000 to 2000000000) and of `a.d.` (valid from 1100000000 to 1900000000). -/
def partC : List RR := wZone "." 0 ++ wDelegation "." "c." 1 ++ [wA "a.c.", wSig "a.c." 1 2 "c."]
def partD : List RR := wZone "." 0 ++ wDelegation "." "d." 1 ++
  [wA "a.d.", .rrsig ⟨⟨ascii "a.d."⟩, 1, 8, 2, 60, 1900000000, 1100000000, 20326, ⟨ascii "d."⟩, [1]⟩]
def bothParts : List RR := partC ++ partD.drop 2

/-- The signatures in a list. -/
def sigsIn (l : List RR) : List RRSig := l.filterMap (fun | .rrsig s => some s | _ => none)

theorem mem_sigsIn {l : List RR} {s : RRSig} : s ∈ sigsIn l ↔ RR.rrsig s ∈ l := by
  unfold sigsIn
  rw [List.mem_filterMap]
  constructor
  · rintro ⟨r, h, e⟩
    cases r <;> simp at e
    exact e ▸ h
  · exact fun h => ⟨_, h, rfl⟩

/-- A proof whose signatures are by the root and a zone the root delegates to has no stray signatures. -/
theorem noStraySigs_two {a : List RR} {fuel : Nat} {v : Verified} (h : verifyRRStream false wPlatform fuel a = some (.ok v)) (s : RRSig)
    (hs : SignedBy (codeCheck wPlatform) a rootName s) (ht : s.ty = 43)
    (hall : ∀ t ∈ sigsIn a, t.keyName = rootName ∨ t.keyName = s.name) : NoStraySigs wPlatform a := by
  intro t ht' _
  rcases hall t (mem_sigsIn.mpr ht') with e | e
  · exact e ▸ .root
  · obtain ⟨⟨ksig, hk⟩, _⟩ := (verifyRRStream_ok_needs h).1 rootName .root
    exact e ▸ .delegated rootName ksig s .root hk hs ht

/-- The theorem applies to them. -/
example : ∃ fuel v, verifyRRStream false wPlatform fuel bothParts = some (.ok v) ∧ wA "a.c." ∈ v.verifiedRrs ∧ wA "a.d." ∈ v.verifiedRrs ∧
    v.validFrom = 1100000000 ∧ v.expires = 1900000000 ∧ v.maxCacheTtl.toNat = 60 := by
  have vC : verifyRRStream false wPlatform 5 partC = some (.ok ⟨[wA "a.c."], 1000000000, 2000000000, 3600⟩) := by decide +kernel
  have vD : verifyRRStream false wPlatform 5 partD = some (.ok ⟨[wA "a.d."], 1100000000, 1900000000, 60⟩) := by decide +kernel
  have hCD : partD ≠ partC := by decide +kernel
  have rC : (fun a => if a = partC then (⟨[wA "a.c."], 1000000000, 2000000000, 3600⟩ : Verified) else ⟨[wA "a.d."], 1100000000, 1900000000, 60⟩)
      partC = ⟨[wA "a.c."], 1000000000, 2000000000, 3600⟩ := if_pos rfl
  have rD : (fun a => if a = partC then (⟨[wA "a.c."], 1000000000, 2000000000, 3600⟩ : Verified) else ⟨[wA "a.d."], 1100000000, 1900000000, 60⟩)
      partD = ⟨[wA "a.d."], 1100000000, 1900000000, 60⟩ := if_neg hCD
  generalize (fun a => if a = partC then (⟨[wA "a.c."], 1000000000, 2000000000, 3600⟩ : Verified) else ⟨[wA "a.d."], 1100000000, 1900000000, 60⟩)
    = res at rC rD
  have two : ∀ (P : List RR → Prop), P partC → P partD → ∀ a ∈ [partC, partD], P a := by
    intro P h1 h2 a ha
    simp only [List.mem_cons, List.not_mem_nil, or_false] at ha
    rcases ha with rfl | rfl
    · exact h1
    · exact h2
  have hcomb : Combines [partC, partD] bothParts := by
    constructor
    · intro s
      have e : ∀ s, s ∈ sigsIn bothParts ↔ s ∈ sigsIn partC ∨ s ∈ sigsIn partD := by
        have e1 : ∀ s ∈ sigsIn bothParts, s ∈ sigsIn partC ∨ s ∈ sigsIn partD := by decide +kernel
        have e2 : ∀ s ∈ sigsIn partC, s ∈ sigsIn bothParts := by decide +kernel
        have e3 : ∀ s ∈ sigsIn partD, s ∈ sigsIn bothParts := by decide +kernel
        exact fun s => ⟨e1 s, fun h => h.elim (e2 s) (e3 s)⟩
      have := e s
      simp only [mem_sigsIn] at this
      simp [this]
    · refine two _ ?_ ?_
      · have : ∀ s ∈ sigsIn partC, rrset bothParts s.name s.ty = rrset partC s.name s.ty := by decide +kernel
        exact fun s hs => this s (mem_sigsIn.mpr hs) ▸ .refl _
      · have : ∀ s ∈ sigsIn partD, rrset bothParts s.name s.ty = rrset partD s.name s.ty := by decide +kernel
        exact fun s hs => this s (mem_sigsIn.mpr hs) ▸ .refl _
  have hkeys : ∀ k ∈ bothParts.filterMap (fun | .dnskey k => some k | _ => none),
      ∀ k' ∈ bothParts.filterMap (fun | .dnskey k => some k | _ => none), k.name = k'.name → k = k' := by decide +kernel
  have mk : ∀ k, RR.dnskey k ∈ bothParts → k ∈ bothParts.filterMap (fun | .dnskey k => some k | _ => none) :=
    fun k h => List.mem_filterMap.mpr ⟨_, h, rfl⟩
  have hsigs : ∀ s ∈ sigsIn bothParts, ∀ s' ∈ sigsIn bothParts, s.ty = 48 → s'.ty = 48 → s.name = s'.name → s = s' := by decide +kernel
  have hone : OneKeySig bothParts := fun s s' a b c d e => hsigs s (mem_sigsIn.mpr a) s' (mem_sigsIn.mpr b) c d e
  have hexp : ∀ s ∈ sigsIn bothParts, ¬ (s.labels ≠ s.name.labels ∧ s.ty ≠ 47) := by decide +kernel
  have hn3 : ∀ r ∈ bothParts, r.ty ≠ 50 := by decide +kernel
  obtain ⟨fuel, v, hv, h1, h2, h3, h4⟩ := C76_combined_partial (dbg := false) (p := wPlatform) (m := bothParts) (res := res) (parts := [partC, partD])
    (by simp) hcomb (two _ ⟨5, rC ▸ vC⟩ ⟨5, rD ▸ vD⟩)
    (two _ (noStraySigs_two vC ⟨⟨ascii "c."⟩, 43, 8, 1, 3600, 2000000000, 1000000000, 20326, ⟨ascii "."⟩, [1]⟩
        ⟨by decide +kernel, by show verifyRrsig _ _ _ _ = _; decide +kernel⟩ rfl (by decide +kernel))
      (noStraySigs_two vD ⟨⟨ascii "d."⟩, 43, 8, 1, 3600, 2000000000, 1000000000, 20326, ⟨ascii "."⟩, [1]⟩
        ⟨by decide +kernel, by show verifyRrsig _ _ _ _ = _; decide +kernel⟩ rfl (by decide +kernel)))
    ⟨1500000000, two _ (by rw [rC]; decide) (by rw [rD]; decide)⟩
    (fun s _ k k' a b c _ _ => hkeys k (mk k a) k' (mk k' b) c)
    hone.agree hone.times
    ⟨fun _ _ => ⟨(0, []), (0, []), fun n ⟨⟨_, _, _, _, _, _, h, _⟩, _⟩ => absurd rfl (hn3 _ h)⟩,
      fun z s z' s' _ hs _ hx _ _ _ _ _ _ _ => absurd hx (hexp s (mem_sigsIn.mpr (mem_sigsBy.mp hs.1).1))⟩
  refine ⟨fuel, v, hv, (h1 _).mpr ⟨partC, by simp, by rw [rC]; simp⟩, (h1 _).mpr ⟨partD, by simp, by rw [rD]; simp⟩, ?_, ?_, ?_⟩
  · obtain ⟨⟨a, ha, e⟩, hle⟩ := h2
    have hD := hle partD (by simp)
    simp only [rD] at hD
    revert e
    exact two (fun a => (res a).validFrom = v.validFrom → _) (by rw [rC]; simp only at *; omega) (by rw [rD]; exact Eq.symm) a ha
  · obtain ⟨⟨a, ha, e⟩, hle⟩ := h3
    have hD := hle partD (by simp)
    simp only [rD] at hD
    revert e
    exact two (fun a => (res a).expires = v.expires → _) (by rw [rC]; simp only at *; omega) (by rw [rD]; exact Eq.symm) a ha
  · obtain ⟨⟨a, ha, e⟩, hle⟩ := h4
    have hD := hle partD (by simp)
    simp only [rD] at hD
    revert e
    exact two (fun a => (res a).maxCacheTtl.toNat = v.maxCacheTtl.toNat → _)
      (by rw [rC]; simp at *; omega) (by rw [rD]; exact Eq.symm) a ha

/-- **C76 is false** for plain concatenation: with the records of a correctly signed world twice, the proof is rejected. -/
theorem C76_fails_for_concatenation (dbg : Bool) : exWorld.Signed lenPlatform ∧
    (∃ v, verifyRRStream dbg lenPlatform 5 exWorld.records = some (.ok v)) ∧
    verifyRRStream dbg lenPlatform 5 (exWorld.records ++ exWorld.records) = some (.err .invalid) := by
  refine ⟨exSigned, ⟨⟨[wA "x.c."], 1000000000, 2000000000, 3600⟩, ?_⟩, ?_⟩
  · cases dbg <;> decide +kernel
  · cases dbg <;> decide +kernel

/-- An address of `x.c.` nobody signed. -/
def otherAddress : RR := .a ⟨⟨ascii "x.c."⟩, ⟨[5, 6, 7, 8], rfl⟩⟩

/-- A second proof in the same world, of `y.c.`, with an address of `x.c.` nobody signed in it. -/
def otherProof : List RR :=
  [wA "y.c.", .rrsig (lSig "y.c." 1 1 "c." 40), otherAddress] ++ exWorld.records.drop 2

/-- **C76 is false** even if no record is repeated: both proofs are accepted, one has an unsigned record (which is ignored) in the place of a set that is signed in
the other, and the proof with the records of both, each once, is rejected. -/
theorem C76_fails_for_unsigned_records (dbg : Bool) :
    (∃ v, verifyRRStream dbg lenPlatform 5 exWorld.records = some (.ok v) ∧ v.verifiedRrs = [wA "x.c."]) ∧
    (∃ v, verifyRRStream dbg lenPlatform 5 otherProof = some (.ok v) ∧ v.verifiedRrs = [wA "y.c."]) ∧
    verifyRRStream dbg lenPlatform 5 (exWorld.records ++ otherProof.take 3) = some (.err .invalid) ∧
    (∃ v, verifyRRStream dbg lenPlatform 5 (exWorld.records ++ otherProof.take 2) = some (.ok v)) := by
  refine ⟨⟨⟨[wA "x.c."], 1000000000, 2000000000, 3600⟩, ?_, rfl⟩, ⟨⟨[wA "y.c."], 1000000000, 2000000000, 3600⟩, ?_, rfl⟩, ?_,
    ⟨⟨[wA "x.c.", wA "y.c."], 1000000000, 2000000000, 3600⟩, ?_⟩⟩ <;> cases dbg <;> decide +kernel

/-- A bad signature by `d.` over the address of `a.d.`. -/
def straySig : RR := .rrsig ⟨⟨ascii "a.d."⟩, 1, 8, 2, 60, 1900000000, 1100000000, 20326, ⟨ascii "d."⟩, [2]⟩

/-- **C76 is false** if a proof has a signature by a zone it does not lead to (which is ignored): together with a proof that leads to that zone, the proof is
rejected. -/
theorem C76_fails_for_stray_signatures (dbg : Bool) :
    verifyRRStream dbg wPlatform 5 (partC ++ [straySig]) = some (.ok ⟨[wA "a.c."], 1000000000, 2000000000, 3600⟩) ∧
    verifyRRStream dbg wPlatform 5 partD = some (.ok ⟨[wA "a.d."], 1100000000, 1900000000, 60⟩) ∧
    (∃ v, verifyRRStream dbg wPlatform 5 bothParts = some (.ok v)) ∧
    verifyRRStream dbg wPlatform 5 (bothParts ++ [straySig]) = some (.err .invalid) := by
  refine ⟨?_, ?_, ⟨⟨[wA "a.d.", wA "a.c."], 1100000000, 1900000000, 60⟩, ?_⟩, ?_⟩ <;> cases dbg <;> decide +kernel

end Dnssec.Props
