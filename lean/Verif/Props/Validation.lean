import Verif.Proofs.Denial
import Verif.Proofs.Suffix
import Verif.Proofs.Example
import Verif.Proofs.Decide

/-! # C21-C30, C32: the chain of trust -/

namespace Dnssec.Props

open Dnssec Spec

variable {dbg : Bool} {p : Platform} {fuel : Nat} {inp : List RR} {v : Verified}

/-- The example stream verifies. -/
theorem wStream_ok (dbg : Bool) :
    verifyRRStream dbg wPlatform 5 wStream = some (.ok ⟨[wA "a.c."], 1000000000, 2000000000, 3600⟩) := by
  cases dbg <;> decide +kernel

theorem wStream_proper : ProperInput wStream := by
  have h0 : HasLabels ⟨ascii "."⟩ [] := by decide
  have h1 : HasLabels ⟨ascii "c."⟩ [ascii "c"] := by decide
  have h2 : HasLabels ⟨ascii "a.c."⟩ [ascii "a", ascii "c"] := by decide
  refine ⟨?_, ?_, ?_, ?_⟩
  · intro r hr
    simp only [wStream, wZone, wDelegation, List.cons_append, List.nil_append, List.mem_cons, List.not_mem_nil, or_false] at hr
    rcases hr with rfl | rfl | rfl | rfl | rfl | rfl | rfl | rfl
    · exact ⟨_, h0⟩
    · exact ⟨_, h0⟩
    · exact ⟨_, h1⟩
    · exact ⟨_, h1⟩
    · exact ⟨_, h1⟩
    · exact ⟨_, h1⟩
    · exact ⟨_, h2⟩
    · exact ⟨_, h2⟩
  · intro s hs
    simp only [wStream, wZone, wDelegation, wKey, wSig, wSigWith, wDs, wA, List.cons_append, List.nil_append, List.mem_cons,
      List.not_mem_nil, or_false, RR.rrsig.injEq, reduceCtorEq, false_or] at hs
    rcases hs with rfl | rfl | rfl | rfl
    · exact ⟨_, h0⟩
    · exact ⟨_, h0⟩
    · exact ⟨_, h1⟩
    · exact ⟨_, h1⟩
  · intro t ht
    simp [wStream, wZone, wDelegation, wKey, wSig, wSigWith, wDs, wA] at ht
  · have h : ∀ r ∈ wStream, r.ty ≠ 46 → r.ty ∈ [1, 16, 28, 43, 48, 52] := by decide +kernel
    intro s hs r hr r' hr' h1 h2 h3 h4 h5
    by_cases h46 : r.ty = 46
    · have : ∀ s ∈ wStream, s.ty = 46 → ∀ x, s = .rrsig x → x.ty ≠ 46 := by
        intro s hs _ x hx
        subst hx
        simp only [wStream, wZone, wDelegation, wKey, wSig, wSigWith, wDs, wA, List.cons_append, List.nil_append, List.mem_cons,
          List.not_mem_nil, or_false, RR.rrsig.injEq, reduceCtorEq, false_or] at hs
        rcases hs with rfl | rfl | rfl | rfl <;> decide
      exact absurd (h2 ▸ h46) (this _ hs rfl s rfl)
    · exact .inl (h r hr h46)

/-! ## C21 and C27: exactly the authenticated records are returned -/

/-- The returned records, for either notion of a good signature. -/
theorem verified_iff {S : SigCheck} (hS : Agrees p inp S) (h : verifyRRStream dbg p fuel inp = some (.ok v)) (r : RR) :
    r ∈ v.verifiedRrs ↔ Authenticated S p inp r ∧ r.ty ≠ 43 ∧ r.ty ≠ 47 ∧ r.ty ≠ 50 := by
  obtain ⟨st, hF, _, _, _, hv, _⟩ := verifyRRStream_ok h
  rw [hv, List.mem_filter, hF.eff.res, ← hS.authenticated]
  unfold Authenticated
  constructor
  · rintro ⟨⟨sig, ⟨z, hz, hs⟩, hd, hr⟩, ht⟩
    obtain ⟨hr1, hr2, hr3⟩ := mem_rrset.mp hr
    obtain ⟨ksig, hk⟩ := hF.keys z hz
    simp only [Bool.and_eq_true, bne_iff_ne] at ht
    exact ⟨⟨z, ksig, sig, hz, hk, hs, hr1, hr2, hr3⟩, by rw [hr3]; exact hd, ht.1, ht.2⟩
  · rintro ⟨⟨z, ksig, sig, hz, hk, hs, hr1, hr2, hr3⟩, hd, ht1, ht2⟩
    refine ⟨⟨sig, ⟨z, hz, hs⟩, by rw [← hr3]; exact hd, mem_rrset.mpr ⟨hr1, hr2, hr3⟩⟩, ?_⟩
    simp only [Bool.and_eq_true, bne_iff_ne]
    exact ⟨ht1, ht2⟩

/-- **C21.** Every verified record is authenticated by a chain of trust from the root anchors. Holds for every input. -/
theorem C21_chain_of_trust (h : verifyRRStream dbg p fuel inp = some (.ok v)) :
    ∀ r ∈ v.verifiedRrs, Authenticated (codeCheck p) p inp r :=
  fun r hr => ((verified_iff (agrees_code p inp) h r).mp hr).1

/-- **C21**, with good signatures as in RFC 4034, for inputs whose owner and signer names have no empty labels. -/
theorem C21_chain_of_trust_rfc (hn : ProperInput inp) (h : verifyRRStream dbg p fuel inp = some (.ok v)) :
    ∀ r ∈ v.verifiedRrs, Authenticated (rfcCheck p) p inp r :=
  fun r hr => ((verified_iff (agrees_rfc p inp hn) h r).mp hr).1

/-- **C21.** On success the key set of every reached zone is authenticated. -/
theorem C21_all_key_sets (h : verifyRRStream dbg p fuel inp = some (.ok v)) (z : Name)
    (hz : Reached (codeCheck p) p inp z) : ∃ ksig, ZoneKeysOk (codeCheck p) p inp z ksig := by
  obtain ⟨st, hF, _⟩ := verifyRRStream_ok h
  exact hF.keys z hz

example : ProperInput wStream ∧
    verifyRRStream true wPlatform 5 wStream = some (.ok ⟨[wA "a.c."], 1000000000, 2000000000, 3600⟩) :=
  ⟨wStream_proper, wStream_ok true⟩

/-- **C27.** Every authenticated record that is not DS, NSEC or NSEC3 is returned, and nothing else. -/
theorem C27_exact (h : verifyRRStream dbg p fuel inp = some (.ok v)) (r : RR) :
    r ∈ v.verifiedRrs ↔ Authenticated (codeCheck p) p inp r ∧ r.ty ≠ 43 ∧ r.ty ≠ 47 ∧ r.ty ≠ 50 :=
  verified_iff (agrees_code p inp) h r

/-- **C27**, with good signatures as in RFC 4034. -/
theorem C27_exact_rfc (hn : ProperInput inp) (h : verifyRRStream dbg p fuel inp = some (.ok v)) (r : RR) :
    r ∈ v.verifiedRrs ↔ Authenticated (rfcCheck p) p inp r ∧ r.ty ≠ 43 ∧ r.ty ≠ 47 ∧ r.ty ≠ 50 :=
  verified_iff (agrees_rfc p inp hn) h r

/-- An unsigned record next to the signed ones is not returned. -/
example : verifyRRStream false wPlatform 5 (wA "b.c." :: wStream) =
    some (.ok ⟨[wA "a.c."], 1000000000, 2000000000, 3600⟩) := by decide +kernel

/-! ## C22 -/

/-- A stream in which `oogle.com.` speaks for `google.com.`. -/
def hijack : List RR :=
  wZone "." 0 ++ wDelegation "." "com." 1 ++ wDelegation "com." "oogle.com." 2 ++ [wA "google.com.", wSig "google.com." 1 2 "oogle.com."]

/-- **C22 is false**: the zone `oogle.com.` can sign for `google.com.`, because containment is tested on the text of the
names. The address of `google.com.` is returned as verified although the only signature over it is by `oogle.com.`. -/
theorem C22_fails_for_textual_suffix (dbg : Bool) :
    verifyRRStream dbg wPlatform 5 hijack = some (.ok ⟨[wA "google.com."], 1000000000, 2000000000, 3600⟩) ∧
    (∀ s, RR.rrsig s ∈ hijack → s.name = (wA "google.com.").name → s.ty = 1 → s.keyName = ⟨ascii "oogle.com."⟩) ∧
    HasLabels (wA "google.com.").name [ascii "google", ascii "com"] ∧
    HasLabels ⟨ascii "oogle.com."⟩ [ascii "oogle", ascii "com"] ∧
    ¬ AtOrBelow [ascii "google", ascii "com"] [ascii "oogle", ascii "com"] := by
  refine ⟨by cases dbg <;> decide +kernel, ?_, by decide, by decide, ?_⟩
  · intro s hs hn ht
    simp only [hijack, wZone, wDelegation, wKey, wSig, wSigWith, wDs, wA, List.cons_append, List.nil_append, List.mem_cons,
      List.not_mem_nil, or_false, RR.rrsig.injEq, reduceCtorEq, false_or] at hs
    rcases hs with rfl | rfl | rfl | rfl | rfl | rfl
    · exact absurd ht (by decide)
    · exact absurd ht (by decide)
    · exact absurd ht (by decide)
    · exact absurd ht (by decide)
    · exact absurd ht (by decide)
    · rfl
  · rintro ⟨pre, h⟩
    have hl := congrArg List.length h
    simp at hl
    subst hl
    exact absurd h (by decide)

/-- **C22.** The signer's labels are the last labels of the owner, except that the first label of the signer need only be
the end of the corresponding label. In particular the owner is always at or below the signer's parent, and signatures by
the root are unrestricted. Missing: equality of that one label, which is not checked (previous theorem). -/
theorem C22_containment_partial (hn : ProperInput inp) (h : verifyRRStream dbg p fuel inp = some (.ok v)) :
    ∀ r ∈ v.verifiedRrs, ∃ z sig rl zl, Reached (rfcCheck p) p inp z ∧ SignedBy (rfcCheck p) inp z sig ∧ sig.name = r.name ∧
      sig.ty = r.ty ∧ HasLabels r.name rl ∧ HasLabels z zl ∧
      (zl = [] ∨ ∃ above x first rest, zl = first :: rest ∧ rl = above ++ (x ++ first) :: rest) ∧ AtOrBelow rl zl.tail := by
  intro r hr
  obtain ⟨z, ksig, sig, hz, hk, hs, h1, h2, h3⟩ := C21_chain_of_trust h r hr
  obtain ⟨st, hF, _⟩ := verifyRRStream_ok h
  have hA := agrees_rfc p inp hn
  obtain ⟨hm, hkn, _⟩ := mem_sigsBy.mp hs.1
  obtain ⟨rl, hrl⟩ := hn.1 r h1
  obtain ⟨zl, hzl⟩ := hn.2 sig hm
  rw [hkn] at hzl
  have he := (hF.sigs z hz sig hs.1).1
  rw [← h2, hrl.bytes, hzl.bytes] at he
  have ht := text_suffix hrl.labels hzl.labels he
  refine ⟨z, sig, rl, zl, (hA.reached z).mp hz, (hA.signedBy z sig).mp hs, h2.symm, h3.symm, hrl, hzl, ht, ?_⟩
  rcases ht with rfl | ⟨above, x, first, rest, rfl, rfl⟩
  · exact ⟨rl, by simp⟩
  · exact ⟨above ++ [x ++ first], by simp⟩

/-- **C22.** If every RRSIG in the input names a signer that is a label-wise ancestor (or the owner itself) whenever it is a
textual suffix, containment is label-wise. -/
theorem C22_labelwise_partial (hn : ProperInput inp) (h : verifyRRStream dbg p fuel inp = some (.ok v))
    (hsep : ∀ s, RR.rrsig s ∈ inp → s.keyName = rootName ∨ s.name = s.keyName ∨
      ∀ pre, s.name.bytes = pre ++ s.keyName.bytes → ∃ pre', pre = pre' ++ [46]) :
    ∀ r ∈ v.verifiedRrs, ∃ z sig rl zl, Reached (rfcCheck p) p inp z ∧ SignedBy (rfcCheck p) inp z sig ∧ sig.name = r.name ∧
      sig.ty = r.ty ∧ HasLabels r.name rl ∧ HasLabels z zl ∧ AtOrBelow rl zl := by
  intro r hr
  obtain ⟨z, sig, rl, zl, a1, a2, a3, a4, a5, a6, a7, a8⟩ := C22_containment_partial hn h r hr
  refine ⟨z, sig, rl, zl, a1, a2, a3, a4, a5, a6, ?_⟩
  obtain ⟨hm, hkn, _⟩ := mem_sigsBy.mp a2.1
  rcases a7 with rfl | ⟨above, x, first, rest, rfl, rfl⟩
  · exact ⟨rl, by simp⟩
  · rcases hsep sig hm with hs | hs | hs
    · rw [← hkn, hs] at a6
      have : HasLabels rootName [] := by decide
      exact absurd (a6.unique this) (by simp)
    · rw [← a3, hs, hkn] at a5
      exact ⟨[], a5.unique a6⟩
    · have hne := (a6.labels first (by simp)).nonempty
      have hdot : ∀ l ∈ first :: rest, dot ∉ l := fun l hl => (a6.labels l hl).nodot
      have e1 : sig.name.bytes = (dotted above ++ x) ++ sig.keyName.bytes := by
        rw [a3, a5.bytes, hkn, a6.bytes, text_ne_nil (by simp), text_ne_nil (by simp)]
        simp [dotted]
      obtain ⟨pre', hp⟩ := hs _ e1
      by_cases hx : x = []
      · subst hx; exact ⟨above, by simp⟩
      · exfalso
        have hlast : x.getLast hx = 46 := by
          have := congrArg List.getLast? hp
          rw [List.getLast?_append, List.getLast?_concat, List.getLast?_eq_some_getLast hx] at this
          simpa using this
        have : dot ∈ x := by
          have := List.getLast_mem hx
          rw [hlast] at this
          exact this
        exact (a5.labels (x ++ first) (by simp)).nodot (by simp [this])

/-- Met by the example stream: all its signers are the root or `c.`, at names that are `c.` or end in `.c.`. -/
example : ProperInput wStream ∧
    verifyRRStream true wPlatform 5 wStream = some (.ok ⟨[wA "a.c."], 1000000000, 2000000000, 3600⟩) ∧
    ∀ s, RR.rrsig s ∈ wStream → s.keyName = rootName ∨ s.name = s.keyName ∨
      ∀ pre, s.name.bytes = pre ++ s.keyName.bytes → ∃ pre', pre = pre' ++ [46] := by
  refine ⟨wStream_proper, wStream_ok true, fun s hs => ?_⟩
  have h : ∀ s ∈ wStream.filterMap (fun | .rrsig s => some s | _ => none), s.keyName = rootName ∨ s.name = s.keyName ∨
      (s.name.bytes = ascii "a" ++ [46] ++ s.keyName.bytes) := by decide +kernel
  rcases h s (List.mem_filterMap.mpr ⟨_, hs, rfl⟩) with h | h | h
  · exact Or.inl h
  · exact Or.inr (Or.inl h)
  · refine Or.inr (Or.inr fun pre e => ⟨ascii "a", ?_⟩)
    rw [h] at e
    exact (List.append_cancel_right e).symm

/-! ## C23 -/

/-- **C23.** `verified_rrs` has no duplicates, only records of the input, and no RRSIG, DNSKEY, DS, NSEC or NSEC3. -/
theorem C23_contents (h : verifyRRStream dbg p fuel inp = some (.ok v)) :
    v.verifiedRrs.Nodup ∧ ∀ r ∈ v.verifiedRrs, r ∈ inp ∧
      (∀ x, r ≠ .rrsig x) ∧ (∀ x, r ≠ .dnskey x) ∧ (∀ x, r ≠ .ds x) ∧ (∀ x, r ≠ .nsec x) ∧ (∀ x, r ≠ .nsec3 x) := by
  obtain ⟨st, hF, _, _, _, hv, _⟩ := verifyRRStream_ok h
  constructor
  · rw [hv]; exact hF.eff.nodup.sublist List.filter_sublist
  · intro r hr
    obtain ⟨⟨z, ksig, sig, hz, hk, hs, h1, h2, h3⟩, d1, d2, d3⟩ := (C27_exact h r).mp hr
    have hty : sig.ty ≠ 46 ∧ sig.ty ≠ 48 := by
      rcases (hF.sigs z hz sig hs.1).2 with hu | ⟨_, ha⟩
      · have := hs.2
        change verifyRrsig _ _ _ _ = _ at this
        change verifyRrsig _ _ _ _ = _ at hu
        rw [hu] at this; simp at this
      · exact ⟨ha.1, ha.2.1⟩
    rw [← h3] at hty
    refine ⟨h1, ?_, ?_, ?_, ?_, ?_⟩
    · rintro x rfl; exact hty.1 rfl
    · rintro x rfl; exact hty.2 rfl
    · rintro x rfl; exact d1 rfl
    · rintro x rfl; exact d2 rfl
    · rintro x rfl; exact d3 rfl

/-- Met by the example stream, which has RRSIG, DNSKEY and DS records that are not returned. -/
example : verifyRRStream true wPlatform 5 wStream = some (.ok ⟨[wA "a.c."], 1000000000, 2000000000, 3600⟩) ∧
    wStream.map (·.ty) = [48, 46, 43, 46, 48, 46, 1, 46] := ⟨wStream_ok true, by decide +kernel⟩

/-! ## C24, C25 -/

theorem used_iff (inp : List RR) (s : RRSig) : Used (codeCheck p) p inp s ↔
    (∃ z, Reached (codeCheck p) p inp z ∧ ZoneKeysOk (codeCheck p) p inp z s) ∨
    (∃ z, Reached (codeCheck p) p inp z ∧ SignedBy (codeCheck p) inp z s) := by
  unfold Used
  constructor
  · rintro ⟨z, h, a | a⟩
    · exact Or.inl ⟨z, h, a⟩
    · exact Or.inr ⟨z, h, a⟩
  · rintro (⟨z, h, a⟩ | ⟨z, h, a⟩)
    · exact ⟨z, h, Or.inl a⟩
    · exact ⟨z, h, Or.inr a⟩

theorem resolveTime_bounds (t : UInt32) : 0 < resolveTime t ∧ resolveTime t < 18446744073709551615 := by
  have := t.toNat_lt
  unfold resolveTime
  split <;> omega

/-- **C24.** `valid_from` is the latest inception and `expires` the earliest expiration of all RRSIGs used, and the window
is not empty. -/
theorem C24_window (h : verifyRRStream dbg p fuel inp = some (.ok v)) :
    IsMaxOf (Used (codeCheck p) p inp) (fun s => instant s.inception) v.validFrom ∧
    IsMinOf (Used (codeCheck p) p inp) (fun s => instant s.expiration) v.expires ∧ v.validFrom < v.expires := by
  obtain ⟨st, hF, _, hlt, _, _, h1, h2, _⟩ := verifyRRStream_ok h
  obtain ⟨ksig, hk⟩ := hF.keys rootName .root
  have huse : Used (codeCheck p) p inp ksig := ⟨rootName, .root, Or.inl hk⟩
  have hE := hF.eff
  rw [h1, h2]
  refine ⟨⟨?_, fun s hs => hE.inceptionGe s ((used_iff inp s).mp hs)⟩,
    ⟨?_, fun s hs => hE.expiryLe s ((used_iff inp s).mp hs)⟩, hlt⟩
  · rcases hE.inceptionEq with h0 | ⟨s, hs, e⟩
    · have := hE.inceptionGe ksig ((used_iff inp ksig).mp huse)
      have := (resolveTime_bounds ksig.inception).1
      omega
    · exact ⟨s, (used_iff inp s).mpr hs, e⟩
  · rcases hE.expiryEq with h0 | ⟨s, hs, e⟩
    · have := hE.expiryLe ksig ((used_iff inp ksig).mp huse)
      have := (resolveTime_bounds ksig.expiration).2
      omega
    · exact ⟨s, (used_iff inp s).mpr hs, e⟩

/-- **C25.** `max_cache_ttl` is the least original TTL of all RRSIGs used. -/
theorem C25_ttl (h : verifyRRStream dbg p fuel inp = some (.ok v)) :
    IsMinOf (Used (codeCheck p) p inp) (fun s => s.origTtl.toNat) v.maxCacheTtl.toNat := by
  obtain ⟨st, hF, _, _, _, _, _, _, h1⟩ := verifyRRStream_ok h
  obtain ⟨ksig, hk⟩ := hF.keys rootName .root
  have huse : Used (codeCheck p) p inp ksig := ⟨rootName, .root, Or.inl hk⟩
  have hE := hF.eff
  rw [h1]
  refine ⟨?_, fun s hs => UInt32.le_iff_toNat_le.mp (hE.ttlLe s ((used_iff inp s).mp hs))⟩
  rcases hE.ttlEq with h0 | ⟨s, hs, e⟩
  · refine ⟨ksig, huse, ?_⟩
    have h2 := UInt32.le_iff_toNat_le.mp (hE.ttlLe ksig ((used_iff inp ksig).mp huse))
    have h3 := ksig.origTtl.toNat_lt
    rw [h0] at h2 ⊢
    simp at h2 ⊢
    omega
  · exact ⟨s, (used_iff inp s).mpr hs, congrArg UInt32.toNat e⟩

/-- **C24**, **C25** with good signatures as in RFC 4034. -/
theorem C24_C25_rfc (hn : ProperInput inp) (h : verifyRRStream dbg p fuel inp = some (.ok v)) :
    IsMaxOf (Used (rfcCheck p) p inp) (fun s => instant s.inception) v.validFrom ∧
    IsMinOf (Used (rfcCheck p) p inp) (fun s => instant s.expiration) v.expires ∧
    IsMinOf (Used (rfcCheck p) p inp) (fun s => s.origTtl.toNat) v.maxCacheTtl.toNat := by
  have e : Used (codeCheck p) p inp = Used (rfcCheck p) p inp :=
    funext fun s => propext ((agrees_rfc p inp hn).used s)
  rw [← e]
  exact ⟨(C24_window h).1, (C24_window h).2.1, C25_ttl h⟩

/-- Signatures with different times and TTLs: the tightest of each count (here one from the root's key set, one from the
delegation, one from the data). -/
example : verifyRRStream false wPlatform 5
    [wKey ".", .rrsig ⟨⟨ascii "."⟩, 48, 8, 0, 100, 2000000003, 1000000000, 20326, ⟨ascii "."⟩, [1]⟩,
     wDs "c.", .rrsig ⟨⟨ascii "c."⟩, 43, 8, 1, 200, 2000000000, 1000000001, 20326, ⟨ascii "."⟩, [1]⟩,
     wKey "c.", wSig "c." 48 1 "c.",
     wA "a.c.", .rrsig ⟨⟨ascii "a.c."⟩, 1, 8, 2, 300, 2000000001, 1000000002, 20326, ⟨ascii "c."⟩, [1]⟩] =
    some (.ok ⟨[wA "a.c."], 1000000002, 2000000000, 100⟩) := by decide +kernel

/-! ## C26 -/

/-- **C26.** One bad signature by a reached zone (one that neither verifies nor is of an unsupported algorithm) rejects the
whole stream. -/
theorem C26_bad_signature (z : Name) (hz : Reached (codeCheck p) p inp z) (s : RRSig) (hs : RR.rrsig s ∈ inp)
    (hk : s.keyName = z) (ht : s.ty ≠ 48) (hbad : ¬ (codeCheck p).good s (keysAt inp z) (rrset inp s.name s.ty))
    (hsup : ¬ (codeCheck p).unsupported s (keysAt inp z) (rrset inp s.name s.ty)) :
    verifyRRStream dbg p fuel inp ≠ some (.ok v) := by
  intro h
  obtain ⟨st, hF, _⟩ := verifyRRStream_ok h
  rcases (hF.sigs z hz s (mem_sigsBy.mpr ⟨hs, hk, ht⟩)).2 with a | ⟨a, _⟩
  · exact hsup a
  · exact hbad a.2

/-- **C26**, with good signatures as in RFC 4034. -/
theorem C26_bad_signature_rfc (hn : ProperInput inp) (z : Name) (hz : Reached (rfcCheck p) p inp z) (s : RRSig)
    (hs : RR.rrsig s ∈ inp) (hk : s.keyName = z) (ht : s.ty ≠ 48) (hsup : Supported s.alg)
    (hbad : ¬ GoodSig p s (keysAt inp z) (rrset inp s.name s.ty)) : verifyRRStream dbg p fuel inp ≠ some (.ok v) := by
  have hA := agrees_rfc p inp hn
  have hm : ∀ r ∈ rrset inp s.name s.ty, r ∈ inp ∧ r.name = s.name ∧ r.ty = s.ty := fun r hr => mem_rrset.mp hr
  refine C26_bad_signature z ((hA.reached z).mpr hz) s hs hk ht (fun h => hbad ((hA s hs _ _ hm).1.mp h)) (fun h => ?_)
  exact ((hA s hs _ _ hm).2.mp h).2.2.2 hsup

/-- **C26.** A signature whose owner does not end in the signer's name (as text), or over RRSIG records, rejects the stream
if it is by a reached zone and (in the second case) verifies. -/
theorem C26_outside_or_over_rrsig (z : Name) (hz : Reached (codeCheck p) p inp z) (s : RRSig) (hs : RR.rrsig s ∈ inp)
    (hk : s.keyName = z) (ht : s.ty ≠ 48)
    (hbad : (∀ pre, s.name.bytes ≠ pre ++ z.bytes) ∨
      (s.ty = 46 ∧ ¬ (codeCheck p).unsupported s (keysAt inp z) (rrset inp s.name s.ty))) :
    verifyRRStream dbg p fuel inp ≠ some (.ok v) := by
  intro h
  obtain ⟨st, hF, _⟩ := verifyRRStream_ok h
  obtain ⟨a, b⟩ := hF.sigs z hz s (mem_sigsBy.mpr ⟨hs, hk, ht⟩)
  rcases hbad with hb | ⟨hb, hb'⟩
  · obtain ⟨pre, e⟩ := (endsWith_iff _ _).mp a
    exact hb pre e
  · rcases b with b | ⟨_, b⟩
    · exact hb' b
    · exact b.1 hb

/-- **C26.** If the key set of a reached zone is not authenticated, the stream is rejected. -/
theorem C26_bad_key_set (z : Name) (hz : Reached (codeCheck p) p inp z)
    (hbad : ∀ ksig, ¬ ZoneKeysOk (codeCheck p) p inp z ksig) : verifyRRStream dbg p fuel inp ≠ some (.ok v) := by
  intro h
  obtain ⟨ksig, hk⟩ := C21_all_key_sets h z hz
  exact hbad ksig hk

/-- **C26.** A signature of an unsupported algorithm contributes nothing: it is never used. -/
theorem C26_unsupported_unused (s : RRSig) (hs : ¬ Supported s.alg) : ¬ Used (codeCheck p) p inp s := by
  have key : ∀ keys records, ¬ (codeCheck p).good s keys records := by
    intro keys records h
    obtain ⟨_, k, msg, _, _, h2⟩ := (verifyRrsig_ok_iff p s keys records).mp h
    apply hs
    unfold Supported
    rcases h2 with ⟨_, _, h', _⟩ | ⟨_, _, h', _⟩ | ⟨h', _⟩ | ⟨h', _⟩ | ⟨h', _⟩ <;> simp [h']
  rintro ⟨z, _, ⟨_, _, _, _, _, h⟩ | h⟩
  · exact key _ _ h
  · exact key _ _ h.2

/-- With a second, bad signature the example stream is rejected; with one of an unsupported algorithm (5, with a matching
key) it is accepted and that signature's times are ignored. -/
example : verifyRRStream false wPlatform 5 (wStream ++ [wSigWith 8 [2] "c." 1 1 "c."]) = some (.err .invalid) ∧
    verifyRRStream false wPlatform 5 (wStream ++ [.dnskey ⟨⟨ascii "c."⟩, 257, 3, 5, [1, 3, 0x4A, 0x5D]⟩,
      .rrsig ⟨⟨ascii "c."⟩, 1, 5, 1, 1, 1, 1, 20326, ⟨ascii "c."⟩, [1]⟩]) =
      some (.ok ⟨[wA "a.c."], 1000000000, 2000000000, 3600⟩) := by decide +kernel

/-! ## C28, C29, C30 -/

theorem signedRecords_mem {sig : RRSig} {l : List RR} {body : Bytes} (hb : signedRecords sig l = some body) {r : RR}
    (hmem : r ∈ l) : ∃ o, signedOwner sig r = some o := by
  induction l generalizing body with
  | nil => simp at hmem
  | cons x xs ih =>
    rw [signedRecords] at hb
    cases ho : signedOwner sig x with
    | none => rw [ho] at hb; simp at hb
    | some o =>
      rw [ho] at hb
      rcases List.mem_cons.mp hmem with rfl | hmem
      · exact ⟨o, ho⟩
      · simp only [Option.map_eq_some_iff] at hb
        obtain ⟨b', hb', _⟩ := hb
        exact ih hb' hmem

/-- **C28.** Whenever a record is accepted through a wildcard signature, the name one label longer than the wildcard's
parent (the next closer name) is denied by an authenticated NSEC or NSEC3 record. -/
theorem C28_wildcard_needs_denial (h : verifyRRStream dbg p fuel inp = some (.ok v)) (z : Name) (sig : RRSig)
    (hz : Reached (codeCheck p) p inp z) (hs : SignedBy (codeCheck p) inp z sig) (r : RR) (hr : r ∈ inp)
    (hn : r.name = sig.name) (ht : r.ty = sig.ty) (hds : sig.ty ≠ 43) (hx : Expanded sig)
    (ls : List Bytes) (hl : HasLabels sig.name ls) :
    ∃ pre next suf, ls = pre ++ next :: suf ∧ suf.length = sig.labels.toNat ∧
      Denied (codeCheck p) p inp (text (next :: suf)) sig.ty := by
  obtain ⟨st, hF, _, _, hp, _⟩ := verifyRRStream_ok h
  -- the number of labels
  have hlt : sig.labels.toNat < ls.length := by
    obtain ⟨_, k, msg, _, hm, _⟩ := (verifyRrsig_ok_iff _ _ _ _).mp hs.2
    have hne : sig.name.labels ≠ sig.labels := fun e => hx.1 e.symm
    have hown : ∃ o, signedOwner sig r = some o := by
      unfold signedData at hm
      rw [Option.map_eq_some_iff] at hm
      obtain ⟨body, hb, _⟩ := hm
      exact signedRecords_mem hb ((sortRRs_perm _).mem_iff.mpr (mem_rrset.mpr ⟨hr, hn, ht⟩))
    obtain ⟨o, ho⟩ := hown
    unfold signedOwner at ho
    simp only [hn, ht] at ho
    rw [hl.labels_eq] at ho
    have hne' : ls.length ≠ sig.labels.toNat := by
      intro e
      apply hne
      apply UInt8.toNat_inj.mp
      rw [hl.labels_eq, e]
    rw [if_pos ⟨hx.2, hne'⟩] at ho
    by_cases hlt : ls.length < sig.labels.toNat
    · rw [if_pos hlt] at ho; simp at ho
    · omega
  have hbound : ls.length ≤ 255 := by
    rw [← hl.labels_eq]
    have := sig.name.labels.toNat_lt
    omega
  have hsucc : (sig.labels + 1).toNat = sig.labels.toNat + 1 := by
    rw [UInt8.toNat_add]
    change (sig.labels.toNat + 1) % 256 = _
    omega
  have htr := hl.trailing (sig.labels + 1)
  rw [hsucc, if_pos (by omega)] at htr
  have hneed : (⟨text (ls.drop (ls.length - (sig.labels.toNat + 1))), sig.keyName, sig.ty⟩ : Need) ∈ st.needs := by
    rw [hF.eff.needs]
    exact ⟨sig, ⟨z, hz, hs⟩, hds, hx, rfl, rfl, htr⟩
  have hset := proofLoop_ok (by simp) hp _ (List.mem_reverse.mpr ((p.sortNeeds_perm st.needs).mem_iff.mpr hneed))
  obtain ⟨o, _, _, hset⟩ := hset
  have hauth : ∀ x, x ∈ st.res → Authenticated (codeCheck p) p inp x := by
    intro x hx
    obtain ⟨s', ⟨z', hz', hs'⟩, _, hx'⟩ := (hF.eff.res x).mp hx
    obtain ⟨a, b, c⟩ := mem_rrset.mp hx'
    obtain ⟨ksig, hk⟩ := hF.keys z' hz'
    exact ⟨z', ksig, s', hz', hk, hs', a, b, c⟩
  have hdrop : ls.drop (ls.length - (sig.labels.toNat + 1)) ≠ [] := by
    intro e
    have := congrArg List.length e
    simp at this
    omega
  obtain ⟨next, suf, e⟩ := List.exists_cons_of_ne_nil hdrop
  refine ⟨ls.take (ls.length - (sig.labels.toNat + 1)), next, suf, ?_, ?_, ?_⟩
  · rw [← e, List.take_append_drop]
  · have := congrArg List.length e
    simp at this
    omega
  · rw [← e]
    rcases hset with ⟨n, a, _, b⟩ | ⟨n, a, _, b⟩
    · exact Or.inl ⟨n, hauth _ a, b⟩
    · exact Or.inr ⟨n, hauth _ a, b⟩

/-- **C28**, with good signatures as in RFC 4034. -/
theorem C28_wildcard_needs_denial_rfc (hw : ProperInput inp) (h : verifyRRStream dbg p fuel inp = some (.ok v)) (z : Name)
    (sig : RRSig) (hz : Reached (rfcCheck p) p inp z) (hs : SignedBy (rfcCheck p) inp z sig) (r : RR) (hr : r ∈ inp)
    (hn : r.name = sig.name) (ht : r.ty = sig.ty) (hds : sig.ty ≠ 43) (hx : Expanded sig)
    (ls : List Bytes) (hl : HasLabels sig.name ls) :
    ∃ pre next suf, ls = pre ++ next :: suf ∧ suf.length = sig.labels.toNat ∧
      Denied (rfcCheck p) p inp (text (next :: suf)) sig.ty := by
  have hA := agrees_rfc p inp hw
  obtain ⟨pre, next, suf, e, l, d⟩ :=
    C28_wildcard_needs_denial h z sig ((hA.reached z).mpr hz) ((hA.signedBy z sig).mpr hs) r hr hn ht hds hx ls hl
  refine ⟨pre, next, suf, e, l, ?_⟩
  rcases d with ⟨n, a, b⟩ | ⟨n, a, b⟩
  · exact Or.inl ⟨n, (hA.authenticated _).mp a, b⟩
  · exact Or.inr ⟨n, (hA.authenticated _).mp a, b⟩

/-- A wildcard expansion `x.c.` from `*.c.` with an NSEC record. -/
def wildStream (owner next : String) (types : List UInt16) : List RR :=
  wZone "." 0 ++ wDelegation "." "c." 1 ++ [wA "x.c.", wSig "x.c." 1 1 "c.",
    .nsec ⟨⟨ascii owner⟩, ⟨ascii next⟩, NSecTypeMask.fromTypes types⟩, wSig owner 47 2 "c."]

/-- It is accepted with an NSEC covering `x.c.`, rejected without one, and rejected with one that does not cover it. -/
example : verifyRRStream false wPlatform 5 (wildStream "a.c." "z.c." [1]) =
      some (.ok ⟨[wA "x.c."], 1000000000, 2000000000, 3600⟩) ∧
    verifyRRStream false wPlatform 5 ((wildStream "a.c." "z.c." [1]).take 8) = some (.err .invalid) ∧
    verifyRRStream false wPlatform 5 (wildStream "a.c." "b.c." [1]) = some (.err .invalid) := by
  decide +kernel

/-- **C29 is false**: an NSEC record at the next closer name itself, showing that the name exists *and has the type*,
is accepted as denial. -/
theorem C29_fails_for_existing_name :
    verifyRRStream false wPlatform 5 (wildStream "x.c." "z.c." [1]) =
      some (.ok ⟨[wA "x.c."], 1000000000, 2000000000, 3600⟩) ∧
    (NSecTypeMask.fromTypes [1]).containsType 1 = true := by decide +kernel

/-- **C29 is false**: an NSEC record of another zone is accepted as denial. The wildcard `*.b.c.` is in zone `b.c.`; the NSEC
record is signed by the parent zone `c.` at a name that merely ends in the text `b.c.`. -/
theorem C29_fails_for_other_zone :
    verifyRRStream false wPlatform 5
      (wZone "." 0 ++ wDelegation "." "c." 1 ++ wDelegation "c." "b.c." 2 ++ [wA "x.b.c.", wSig "x.b.c." 1 2 "b.c.",
        .nsec ⟨⟨ascii "ab.c."⟩, ⟨ascii "z.c."⟩, NSecTypeMask.fromTypes []⟩, wSig "ab.c." 47 2 "c."]) =
      some (.ok ⟨[wA "x.b.c."], 1000000000, 2000000000, 3600⟩) := by decide +kernel

/-- What RFC 4035 5.4 asks of an NSEC record: the name strictly inside the range, or the owner without the type. -/
def ProperNsec (n : NSec) (name : Bytes) (ty : UInt16) : Prop :=
  (n.name.bytes = name ∧ n.types.containsType ty = false) ∨
  (TextLt n.name.bytes name ∧ TextLt name n.nextName.bytes)

/-- **C29.** What counts as denial is a proper denial or an NSEC record at that very name. Missing: excluding the latter when
it has the type (first theorem above), and the zone (second theorem). -/
theorem C29_denial_partial (n : NSec) (name : Bytes) (ty : UInt16) (h : NsecDenies n name ty) :
    ProperNsec n name ty ∨ n.name.bytes.map foldCase = name.map foldCase := by
  rcases h with h | ⟨h1, h2⟩
  · exact Or.inl (Or.inl h)
  · rcases h1 with h1 | h1
    · exact Or.inr h1
    · exact Or.inl (Or.inr ⟨h1, h2⟩)

/-- A record that denies the type at its own name, one that covers the name, and one that counts although it does neither. -/
example : NsecDenies ⟨⟨ascii "x.c."⟩, ⟨ascii "z.c."⟩, NSecTypeMask.fromTypes [16]⟩ (ascii "x.c.") 1 ∧
    NsecDenies ⟨⟨ascii "a.c."⟩, ⟨ascii "z.c."⟩, NSecTypeMask.fromTypes [1]⟩ (ascii "x.c.") 1 ∧
    NsecDenies ⟨⟨ascii "x.c."⟩, ⟨ascii "z.c."⟩, NSecTypeMask.fromTypes [1]⟩ (ascii "x.c.") 1 := by
  refine ⟨(nsecProves_iff ⟨ascii "x.c.", rootName, 1⟩ _).mp (by decide +kernel),
    (nsecProves_iff ⟨ascii "x.c.", rootName, 1⟩ _).mp (by decide +kernel),
    (nsecProves_iff ⟨ascii "x.c.", rootName, 1⟩ _).mp (by decide +kernel)⟩

/-- **C30.** An NSEC3 record used as a denial has hash algorithm 1, no flags and at most 2500 iterations (with
`C28_wildcard_needs_denial`; this is part of `Nsec3Denies`). -/
theorem C30_limits (need : Need) (search : List NSec3) (n : NSec3)
    (h : nsec3Proves need (nsec3Params p need.name search []) n = true) :
    n.hashAlgo = 1 ∧ n.flags = 0 ∧ n.hashIterations.toNat ≤ 2500 ∧ n.nextNameHash.length = 20 := by
  have hd := nsec3Proves_denies (nsec3Params_ok p need.name search [] (by simp)) h
  obtain ⟨_, _, _, _, _, _, _, _, e, _⟩ := hd.denies
  exact ⟨hd.algo, hd.flags, hd.iterations, e⟩

/-- **C30.** At most two parameter sets are hashed per denied name, each with at most 2500 iterations. -/
theorem C30_two_parameter_sets (name : Bytes) (search : List NSec3) :
    (nsec3Params p name search []).length ≤ 2 ∧ ∀ e ∈ nsec3Params p name search [], e.1.toNat ≤ 2500 :=
  ⟨nsec3Params_length p name search [] (by simp), fun e he => (nsec3Params_ok p name search [] (by simp) e he).1⟩

/-- An NSEC3 record within the limits (or any other record). -/
def withinLimits : RR → Bool
  | .nsec3 n => n.hashAlgo = 1 ∧ n.hashIterations.toNat ≤ 2500
  | _ => true

/-- **C30.** The outcome of the denial search is the same as if NSEC3 records with other hash algorithms or more than 2500
iterations were not there; in particular they do not use up one of the two parameter sets. -/
theorem C30_others_ignored (res : List RR) : ∀ (fuel : Nat) (needs : List Need),
    proofLoop p res fuel needs = proofLoop p (res.filter withinLimits) fuel needs := by
  have e1 : ∀ z, nsecSearch (res.filter withinLimits) z = nsecSearch res z := by
    intro z
    unfold nsecSearch
    rw [List.filterMap_filter]
    congr 1
    funext r
    cases r <;> simp [withinLimits]
  have e2 : ∀ z, nsec3Search (res.filter withinLimits) z =
      (nsec3Search res z).filter (fun n => withinLimits (.nsec3 n)) := by
    intro z
    unfold nsec3Search
    rw [List.filterMap_filter, List.filter_filterMap]
    congr 1
    funext r
    cases r with
    | nsec3 n =>
      simp only
      by_cases h : withinLimits (.nsec3 n) = true <;> by_cases h' : endsWith n.name.bytes z.bytes = true <;>
        simp [h, h', Option.filter]
    | _ => simp [withinLimits]
  have e3 : ∀ name ns acc, nsec3Params p name (ns.filter (fun n => withinLimits (.nsec3 n))) acc = nsec3Params p name ns acc := by
    intro name ns
    induction ns with
    | nil => intro acc; rfl
    | cons n ns ih =>
      intro acc
      by_cases h : withinLimits (.nsec3 n) = true
      · rw [List.filter_cons_of_pos (by exact h), nsec3Params, nsec3Params]; simp only [ih]
      · rw [List.filter_cons_of_neg (by exact h), ih]
        conv => rhs; rw [nsec3Params]
        unfold withinLimits at h
        simp only [decide_eq_true_eq, Classical.not_and_iff_not_or_not] at h
        split
        · rfl
        · next hi =>
          have hi' : n.hashIterations.toNat ≤ 2500 := by
            have := mt UInt16.lt_iff_toNat_lt.mpr hi
            simpa using this
          rw [if_pos]
          rcases h with h | h
          · exact h
          · exact absurd hi' h
  intro fuel
  induction fuel with
  | zero => intro needs; rw [proofLoop, proofLoop]
  | succ fuel ih =>
    intro needs
    cases needs with
    | nil => rw [proofLoop, proofLoop]
    | cons need rest =>
      rw [proofLoop, proofLoop, e1, e2]
      have e4 : (nsec3Search res need.zone).find? (nsec3Proves need (nsec3Params p need.name (nsec3Search res need.zone) [])) =
          ((nsec3Search res need.zone).filter (fun n => withinLimits (.nsec3 n))).find?
            (nsec3Proves need (nsec3Params p need.name (nsec3Search res need.zone) [])) := by
        rw [List.find?_filter]
        congr 1
        funext n
        cases h : nsec3Proves need (nsec3Params p need.name (nsec3Search res need.zone) []) n with
        | false => simp
        | true =>
          obtain ⟨a, _, b, _⟩ := C30_limits need _ n h
          simp [withinLimits, a, b]
      simp only [e3, e4, ih]

/-- An NSEC3 wildcard denial: the toy hash of the next closer name `x.c.` starts with the byte 120, the records range from
hash 0 to a hash starting with `hi`. -/
def wild3Stream (flags : UInt8) (iterations : UInt16) (hi : UInt8) : List RR :=
  wZone "." 0 ++ wDelegation "." "c." 1 ++ [wA "x.c.", wSig "x.c." 1 1 "c.",
    .nsec3 ⟨⟨ascii "00000000000000000000000000000000.c."⟩, 1, flags, iterations, [], hi :: List.replicate 19 0,
      NSecTypeMask.fromTypes []⟩, wSig "00000000000000000000000000000000.c." 50 2 "c."]

/-- Accepted with 0 iterations; rejected with the opt-out flag, with too many iterations, or if out of range. -/
example : verifyRRStream false wPlatform 5 (wild3Stream 0 0 121) =
      some (.ok ⟨[wA "x.c."], 1000000000, 2000000000, 3600⟩) ∧
    verifyRRStream false wPlatform 5 (wild3Stream 1 0 121) = some (.err .invalid) ∧
    verifyRRStream false wPlatform 5 (wild3Stream 0 2501 121) = some (.err .invalid) ∧
    verifyRRStream false wPlatform 5 (wild3Stream 0 0 119) = some (.err .invalid) := by
  decide +kernel

/-! ## C32 -/

/-- **C32.** A key set is accepted exactly when the DS set has a known digest type and the first supported signature over the
key set is good under the anchored keys (`Spec.Anchored`: digest of owner and RDATA, key tag and algorithm match, SHA-1 only
without SHA-256/384). -/
theorem C32_accept_iff (sigs : List RRSig) (dses : List DS) (keys : List DnsKey) (sig : RRSig) :
    verifyDnskeys p sigs dses keys = .ok sig ↔ Establishes (codeCheck p) p sigs dses keys sig :=
  verifyDnskeys_ok_iff p sigs dses keys sig

/-- **C32.** An empty DS set is `Invalid`. -/
theorem C32_empty (sigs : List RRSig) (keys : List DnsKey) : verifyDnskeys p sigs [] keys = .err .invalid := rfl

/-- **C32.** A non-empty DS set with unknown digest types only is `UnsupportedAlgorithm`. -/
theorem C32_unknown_digest (sigs : List RRSig) (dses : List DS) (keys : List DnsKey) (hne : dses ≠ [])
    (h : ∀ d ∈ dses, d.digestType ≠ 1 ∧ d.digestType ≠ 2 ∧ d.digestType ≠ 4) :
    verifyDnskeys p sigs dses keys = .err .unsupported := by
  unfold verifyDnskeys
  rw [if_neg (by simpa using hne), if_pos]
  rw [Bool.not_eq_true', Bool.eq_false_iff]
  intro hc
  obtain ⟨d, hd, h1⟩ := (knownDigest_iff dses).mp hc
  obtain ⟨a, b, c⟩ := h d hd
  rcases h1 with h1 | h1 | h1
  · exact a h1
  · exact b h1
  · exact c h1

/-- **C32.** With a SHA-256 or SHA-384 DS record present, removing all SHA-1 ones changes nothing. -/
theorem C32_sha1_ignored (sigs : List RRSig) (dses : List DS) (keys : List DnsKey)
    (h : ∃ d ∈ dses, d.digestType = 2 ∨ d.digestType = 4) :
    verifyDnskeys p sigs dses keys = verifyDnskeys p sigs (dses.filter (fun d => d.digestType ≠ 1)) keys := by
  obtain ⟨d, hd, ht⟩ := h
  have hne : d.digestType ≠ 1 := by
    intro e; rw [e] at ht; exact absurd ht (by decide)
  have hm : d ∈ dses.filter (fun d => d.digestType ≠ 1) := List.mem_filter.mpr ⟨hd, by simpa using hne⟩
  have hk : validatedKeys p dses keys = validatedKeys p (dses.filter (fun d => d.digestType ≠ 1)) keys := by
    rw [validatedKeys_eq, validatedKeys_eq]
    unfold anchoredKeys
    apply List.filter_congr
    intro k _
    rw [decide_eq_decide]
    unfold Anchored
    constructor
    · rintro ⟨d', h1, h2, h3⟩
      have h4 : d'.digestType ≠ 1 := by
        intro e
        have := h3 e d hd
        rcases ht with ht | ht
        · exact this.1 ht
        · exact this.2 ht
      exact ⟨d', List.mem_filter.mpr ⟨h1, by simpa using h4⟩, h2, fun e => absurd e h4⟩
    · rintro ⟨d', h1, h2, h3⟩
      obtain ⟨h5, h6⟩ := List.mem_filter.mp h1
      have h4 : d'.digestType ≠ 1 := by simpa using h6
      exact ⟨d', h5, h2, fun e => absurd e h4⟩
  have hkn : dses.any (fun ds => ds.digestType == 1 || ds.digestType == 2 || ds.digestType == 4) = true :=
    (knownDigest_iff _).mpr ⟨d, hd, Or.inr ht⟩
  have hkn' : (dses.filter (fun d => d.digestType ≠ 1)).any
      (fun ds => ds.digestType == 1 || ds.digestType == 2 || ds.digestType == 4) = true :=
    (knownDigest_iff _).mpr ⟨d, hm, Or.inr ht⟩
  have he : dses.isEmpty = false := by
    cases dses with
    | nil => simp at hd
    | cons => rfl
  have he' : (dses.filter (fun d => d.digestType ≠ 1)).isEmpty = false := by
    rw [Bool.eq_false_iff]
    intro hc
    rw [List.isEmpty_iff.mp hc] at hm
    simp at hm
  unfold verifyDnskeys
  rw [he, he', hkn, hkn', hk]

/-- The key of zone `c.` vouched for by a SHA-256 DS; by a SHA-1 DS only; and by a SHA-1 DS next to a SHA-384 one (not
accepted). The SHA-1 of the toy platform is 99 (the second byte of the owner) and zeroes. -/
example :
    let sig : RRSig := ⟨⟨ascii "c."⟩, 48, 8, 1, 3600, 2000000000, 1000000000, 20326, ⟨ascii "c."⟩, [1]⟩
    let sha1 : DS := ⟨⟨ascii "c."⟩, 20326, 8, 1, 99 :: List.replicate 19 0⟩
    let keys := keysAt wStream ⟨ascii "c."⟩
    verifyDnskeys wPlatform [sig] [⟨⟨ascii "c."⟩, 20326, 8, 2, [7]⟩] keys = .ok sig ∧
    verifyDnskeys wPlatform [sig] [sha1] keys = .ok sig ∧
    verifyDnskeys wPlatform [sig] [sha1, ⟨⟨ascii "c."⟩, 1, 8, 4, []⟩] keys = .err .invalid := by decide +kernel

end Dnssec.Props
