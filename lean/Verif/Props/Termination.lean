import Verif.Proofs.Closed
import Verif.Proofs.Exponential
import Verif.Props.Monotone

/-! # C31, C36, C55, C56: termination, work, order of the input, and completeness

`verifyRRStream` gets a bound `fuel` on the number of zones processed and returns `none` if that does not suffice;
`∀ fuel, ... = none` says that the real function does not return. -/

namespace Dnssec.Props

open Dnssec Spec

variable {dbg : Bool} {p : Platform} {inp : List RR}

/-! ## C31 -/

/-- The root zone and one record signed by it. -/
def rootOnly : List RR := wZone "." 0 ++ [wA "a.", wSig "a." 1 1 "."]

/-- `c.` delegated by the root, and a DS set for `c.` signed by `c.` itself. -/
def selfDelegated : List RR := wStream ++ [wSig "c." 43 1 "c."]

/-- A zone whose checks succeed, as decided by computation. -/
def zoneInOrder (p : Platform) (inp : List RR) (z : Name) : Bool :=
  (match verifyDnskeys p (keySigs inp z) (anchors inp z) (keysAt inp z) with | .ok _ => true | _ => false) &&
  (sigsBy inp z).all fun s => endsWith s.name.bytes z.bytes &&
    decide (verifyRrsig p s (keysAt inp z) (rrset inp s.name s.ty) = .ok ()) && decide (s.ty ≠ 46) &&
    (decide (s.labels = s.name.labels) || decide (s.ty = 47) ||
      decide (s.ty ≠ 50) && decide (s.labels.toNat < s.name.labels.toNat))

theorem inOrder_of_check {zs : List Name} (hc : closedUnder inp zs = true) (h : zs.all (zoneInOrder p inp) = true) :
    InOrder (codeCheck p) p inp := by
  intro z hz
  have h := List.all_eq_true.mp h z (reached_mem hc hz)
  unfold zoneInOrder at h
  rw [Bool.and_eq_true] at h
  obtain ⟨h1, h2⟩ := h
  constructor
  · cases hv : verifyDnskeys p (keySigs inp z) (anchors inp z) (keysAt inp z) with
    | ok s => exact ⟨s, (verifyDnskeys_ok_iff _ _ _ _ _).mp hv⟩
    | err e => rw [hv] at h1; simp at h1
    | panic => rw [hv] at h1; simp at h1
  · intro s hs
    have h3 := List.all_eq_true.mp h2 s hs
    simp only [Bool.and_eq_true, Bool.or_eq_true, decide_eq_true_eq] at h3
    obtain ⟨⟨⟨a, b⟩, c⟩, d⟩ := h3
    refine ⟨(endsWith_iff _ _).mp a, Or.inr ⟨⟨hs, b⟩, c, fun _ hx => ?_⟩⟩
    rcases d with (d | d) | d
    · exact absurd d hx.1
    · exact absurd d hx.2
    · exact d

/-- **C31.** If everything in the reached zones is in order but the root signs no DS set, or some reached zone signs a DS set
for itself, `verify_rr_stream` never returns. -/
theorem C31_diverges (h1 : InOrder (codeCheck p) p inp)
    (h2 : ¬ RootDelegates (codeCheck p) inp ∨ SelfDelegation (codeCheck p) p inp) (fuel : Nat) :
    verifyRRStream dbg p fuel inp = none :=
  verifyRRStream_diverges (clean_of_inOrder h1) h2 fuel

/-- **C31, exactly, if the root signs no DS set:** `verify_rr_stream` never returns iff the root zone is in order (given that no signature
claims 255 labels); otherwise it ends, without success, after looking at the root zone. -/
theorem C31_root_exact (hl : ∀ s, RR.rrsig s ∈ inp → s.labels ≠ 255) (h : ¬ RootDelegates (codeCheck p) inp) :
    ((∀ fuel, verifyRRStream dbg p fuel inp = none) ↔ InOrder (codeCheck p) p inp) ∧
    (¬ InOrder (codeCheck p) p inp → ∃ r, verifyRRStream dbg p 1 inp = some r ∧ ∀ v, r ≠ .ok v) := by
  have key : ¬ InOrder (codeCheck p) p inp → ∃ r, verifyRRStream dbg p 1 inp = some r ∧ ∀ v, r ≠ .ok v := by
    intro hn
    unfold verifyRRStream
    rw [zoneLoop, if_pos (Or.inl rfl)]
    simp only [VState.init]
    cases hd : doZone dbg p inp [dot] [] VState.init with
    | err e => exact ⟨.err e, by simp only [VState.init] at hd; rw [hd], by simp⟩
    | panic => exact ⟨.panic, by simp only [VState.init] at hd; rw [hd], by simp⟩
    | ok st =>
      refine absurd ((inOrder_iff_clean (dbg := dbg) hl).mpr fun z hz => ?_) hn
      have hz : z = rootName := by
        induction hz with
        | root => rfl
        | delegated z ksig sig _ _ hs ht ih => subst ih; exact absurd ⟨sig, hs, ht⟩ h
      subst hz
      rw [show ([dot] : Bytes) = rootName.bytes from rfl, doZone_eq _ _ _ _ _ _ (fun h => absurd rfl h)] at hd
      cases hk : verifyDnskeys p (keySigs inp rootName) (anchors inp rootName) (keysAt inp rootName) with
      | err e => rw [hk] at hd; exact nomatch hd
      | panic => rw [hk] at hd; exact nomatch hd
      | ok ksig =>
        rw [hk] at hd
        refine ⟨⟨ksig, (verifyDnskeys_ok_iff _ _ _ _ _).mp hk⟩, fun s hs => ?_⟩
        obtain ⟨a, b⟩ := (sigLoop_ok ((Eff.init inp).noteK ksig) hd).2.1 s hs
        exact ⟨a, b.imp id fun c => ⟨⟨hs, c.1⟩, c.2⟩⟩
  refine ⟨⟨fun hf => ?_, fun ho => C31_diverges ho (Or.inl h)⟩, key⟩
  refine Classical.byContradiction fun hn => ?_
  obtain ⟨e, he, _⟩ := key hn
  rw [hf 1] at he; exact nomatch he

/-- Neither the root zone in order (`rootOnly`, below) nor an empty proof, in which it is not, has a DS set signed by the root. -/
example : verifyRRStream true wPlatform 1 [] = some (.err .invalid) ∧ ¬ RootDelegates (codeCheck wPlatform) [] := by
  refine ⟨by decide +kernel, ?_⟩
  rintro ⟨s, hs, _⟩
  have := hs.1
  simp [mem_sigsBy] at this

/-- **C31 is false**: a proof in which the root delegates nothing makes `verify_rr_stream` loop forever. -/
theorem C31_fails_root_only (dbg : Bool) (fuel : Nat) : verifyRRStream dbg wPlatform fuel rootOnly = none := by
  refine C31_diverges (inOrder_of_check (zs := [rootName]) (by decide +kernel) (by decide +kernel)) (Or.inl ?_) fuel
  rintro ⟨s, hs, ht⟩
  have : ∀ s ∈ sigsBy rootOnly rootName, s.ty ≠ 43 := by decide +kernel
  exact this s hs.1 ht

/-- **C31 is false**: so does a zone that delegates to itself. -/
theorem C31_fails_self_delegation (dbg : Bool) (fuel : Nat) : verifyRRStream dbg wPlatform fuel selfDelegated = none := by
  have hroot : ∃ s ∈ sigsBy selfDelegated rootName, s.ty = 43 ∧ s.name = ⟨ascii "c."⟩ ∧
      verifyRrsig wPlatform s (keysAt selfDelegated rootName) (rrset selfDelegated s.name s.ty) = .ok () := by decide +kernel
  have hself : ∃ s ∈ sigsBy selfDelegated ⟨ascii "c."⟩, s.ty = 43 ∧ s.name = ⟨ascii "c."⟩ ∧
      verifyRrsig wPlatform s (keysAt selfDelegated ⟨ascii "c."⟩) (rrset selfDelegated s.name s.ty) = .ok () := by decide +kernel
  have ho : InOrder (codeCheck wPlatform) wPlatform selfDelegated :=
    inOrder_of_check (zs := [rootName, ⟨ascii "c."⟩]) (by decide +kernel) (by decide +kernel)
  refine C31_diverges ho (Or.inr ?_) fuel
  obtain ⟨s, hs1, hs2, hs3, hs4⟩ := hroot
  obtain ⟨t, ht1, ht2, ht3, ht4⟩ := hself
  obtain ⟨⟨ksig, hk⟩, _⟩ := ho rootName .root
  refine ⟨⟨ascii "c."⟩, ?_, t, ⟨ht1, ht4⟩, ht2, ht3⟩
  rw [← hs3]
  exact .delegated rootName ksig s .root hk ⟨hs1, hs4⟩ hs2

/-- **C31.** With a delegation by the root and no zone delegating to itself, `verify_rr_stream` returns after at most
`(n + 1)^255` zones, `n` being the number of records (names have at most 255 bytes). Missing: the inputs of the theorems
above, on which it does not return. -/
theorem C31_terminates_partial (hlen : ∀ s, RR.rrsig s ∈ inp → s.name.bytes.length ≤ 255)
    (h1 : RootDelegates (codeCheck p) inp) (h2 : ¬ SelfDelegation (codeCheck p) p inp) :
    verifyRRStream dbg p ((inp.length + 1) ^ 255) inp ≠ none :=
  verifyRRStream_terminates hlen h1 (fun z hz s hs ht hn => h2 ⟨z, hz, s, hs, ht, hn⟩) _ (Nat.le_refl _)

/-- **C31.** These conditions are necessary for success. -/
theorem C31_ok_needs {fuel : Nat} {v : Verified} (h : verifyRRStream dbg p fuel inp = some (.ok v)) :
    RootDelegates (codeCheck p) inp ∧ ¬ SelfDelegation (codeCheck p) p inp := by
  obtain ⟨_, a, b, _⟩ := verifyRRStream_ok_needs h
  exact ⟨a, b⟩

/-- The answer does not depend on the bound, so `verify_rr_stream` has at most one result. -/
theorem C31_answer_unique {fuel fuel' : Nat} {r r' : Res VErr Verified} (h : verifyRRStream dbg p fuel inp = some r)
    (h' : verifyRRStream dbg p fuel' inp = some r') : r = r' := by
  rcases Nat.le_total fuel fuel' with hf | hf
  · have := verifyRRStream_mono hf h
    rw [this] at h'
    simpa using h'
  · have := verifyRRStream_mono hf h'
    rw [this] at h
    simpa using h.symm

/-- The example stream meets the conditions of `C31_terminates_partial`. -/
example : (∀ s, RR.rrsig s ∈ wStream → s.name.bytes.length ≤ 255) ∧ RootDelegates (codeCheck wPlatform) wStream ∧
    ¬ SelfDelegation (codeCheck wPlatform) wPlatform wStream := by
  refine ⟨?_, C31_ok_needs (wStream_ok true)⟩
  intro s hs
  simp only [wStream, wZone, wDelegation, wKey, wSig, wSigWith, wDs, wA, List.cons_append, List.nil_append, List.mem_cons,
    List.not_mem_nil, or_false, RR.rrsig.injEq, reduceCtorEq, false_or] at hs
  rcases hs with rfl | rfl | rfl | rfl <;> decide

/-! ## C55 -/

/-- **C55 is false**: zones are processed again and again. With the zones `.`, `a.`, `a.a.`, ..., each signing DS sets for all
deeper ones, fewer than `(n + 3)^2` records need exactly `2^n` iterations, for every `n` up to the longest possible name. -/
theorem C55_fails_exponential (dbg : Bool) (n : Nat) (h1 : 1 ≤ n) (hn : n ≤ 127) :
    (eInput n).length ≤ (n + 3) * (n + 3) ∧
    ∀ fuel, verifyRRStream dbg wPlatform fuel (eInput n) = none ↔ fuel < 2 ^ n :=
  ⟨eInput_length n, e_exact dbg hn h1⟩

/-- For example, 122 zones and 7746 records need more than 10^36 iterations. -/
example : (eInput 121).length = 7746 ∧ ∀ dbg, verifyRRStream dbg wPlatform (10 ^ 36) (eInput 121) = none :=
  ⟨by decide +kernel, fun dbg => ((C55_fails_exponential dbg 121 (by omega) (by omega)).2 _).mpr (by decide)⟩

/-- **C55.** The number of zones processed is at most `(n + 1)^L` for `n` records if no owner name of an RRSIG is longer than `L`
bytes (and `verify_rr_stream` returns at all). Missing: a bound with a small exponent, which does not hold. -/
theorem C55_bound_partial {L : Nat} (hlen : ∀ s, RR.rrsig s ∈ inp → s.name.bytes.length ≤ L)
    (h1 : RootDelegates (codeCheck p) inp) (h2 : ¬ SelfDelegation (codeCheck p) p inp) :
    verifyRRStream dbg p ((inp.length + 1) ^ L) inp ≠ none :=
  verifyRRStream_terminates hlen h1 (fun z hz s hs ht hn => h2 ⟨z, hz, s, hs, ht, hn⟩) _ (Nat.le_refl _)

/-- Met by the example stream with 255 for `L`: see the example below `C31_terminates_partial`. It is far from tight there. -/
example : RootDelegates (codeCheck wPlatform) wStream ∧ ¬ SelfDelegation (codeCheck wPlatform) wPlatform wStream ∧
    verifyRRStream true wPlatform 5 wStream ≠ none :=
  ⟨(C31_ok_needs (wStream_ok true)).1, (C31_ok_needs (wStream_ok true)).2, by rw [wStream_ok]; simp⟩

/-! ## C36 -/

/-- A second root key, not vouched for by a trust anchor, and a signature made with it. -/
def zsk : RR := .dnskey ⟨⟨ascii "."⟩, 256, 3, 8, [1, 3, 0, 1]⟩
def zskSig : RR := .rrsig ⟨⟨ascii "."⟩, 48, 8, 0, 3600, 2000000000, 1000000000, 1292, ⟨ascii "."⟩, [1]⟩

/-- The example stream with a second root key and its signature over the root key set, before or after the first one. -/
def twoKeysGood : List RR := zsk :: wStream ++ [zskSig]
def twoKeysBad : List RR := zsk :: zskSig :: wStream

/-- **C36 is false**: if the root key set is signed by two keys of which one is vouched for by the trust anchor, the input is
accepted or rejected depending on which signature comes first. -/
theorem C36_fails_for_redundant_signatures (dbg : Bool) : twoKeysGood.Perm twoKeysBad ∧
    verifyRRStream dbg wPlatform 5 twoKeysGood = some (.ok ⟨[wA "a.c."], 1000000000, 2000000000, 3600⟩) ∧
    verifyRRStream dbg wPlatform 5 twoKeysBad = some (.err .invalid) := by
  refine ⟨?_, by cases dbg <;> decide +kernel, by cases dbg <;> decide +kernel⟩
  unfold twoKeysGood twoKeysBad
  rw [List.cons_append]
  exact List.Perm.cons _ (List.perm_append_comm (l₂ := [zskSig]))

/-- The second signature is good under the second key. -/
example : verifyRrsig wPlatform ⟨⟨ascii "."⟩, 48, 8, 0, 3600, 2000000000, 1000000000, 1292, ⟨ascii "."⟩, [1]⟩
    [⟨⟨ascii "."⟩, 256, 3, 8, [1, 3, 0, 1]⟩] ((keysAt twoKeysGood rootName).map .dnskey) = .ok () := by decide +kernel

/-- A key of `c.` with the same key tag, algorithm and flags as the other one (the tag is a sum of 16-bit words, so exchanging two words keeps it). -/
def twinKey : RR := .dnskey ⟨⟨ascii "c."⟩, 257, 3, 8, [0x4A, 0x5A, 1, 3] ++ List.replicate 72 0⟩
def twinKey' : RR := .dnskey ⟨⟨ascii "c."⟩, 257, 3, 8, [1, 3, 0x4A, 0x5A] ++ List.replicate 72 0⟩

/-- A platform whose signatures are good only under keys with exponent 3 and a modulus that starts with `4A5A`. -/
def modulusPlatform : Platform :=
  testPlatform (fun b => (b.drop 1).take 1 ++ List.replicate 19 0) (fun b => if b.take 1 = [0] then hintDigest else [7])
    (fun n e _ sig => decide (sig = [1] ∧ e = [3] ∧ n.take 2 = [0x4A, 0x5A]))

/-- The example stream in which `c.` has both keys. -/
def twins (k k' : RR) : List RR :=
  wZone "." 0 ++ [wDs "c.", wSig "c." 43 1 ".", k, k', wSig "c." 48 1 "c.", wA "a.c.", wSig "a.c." 1 2 "c."]

/-- **C36 is false**, even with one signature over each key set, if two keys of a zone have the same key tag: only the first one in the
proof is tried. -/
theorem C36_fails_for_equal_key_tags (dbg : Bool) : (twins twinKey' twinKey).Perm (twins twinKey twinKey') ∧
    OneKeySig (twins twinKey' twinKey) ∧
    verifyRRStream dbg modulusPlatform 5 (twins twinKey' twinKey) = some (.ok ⟨[wA "a.c."], 1000000000, 2000000000, 3600⟩) ∧
    verifyRRStream dbg modulusPlatform 5 (twins twinKey twinKey') = some (.err .invalid) := by
  refine ⟨?_, ?_, by cases dbg <;> decide +kernel, by cases dbg <;> decide +kernel⟩
  · unfold twins
    exact (((List.Perm.swap _ _ _).cons _).cons _).append_left _
  · have h : ∀ s ∈ (twins twinKey' twinKey).filterMap (fun | .rrsig s => some s | _ => none),
        ∀ s' ∈ (twins twinKey' twinKey).filterMap (fun | .rrsig s => some s | _ => none),
        s.ty = 48 → s'.ty = 48 → s.name = s'.name → s = s' := by decide +kernel
    exact fun s s' a b => h s (List.mem_filterMap.mpr ⟨_, a, rfl⟩) s' (List.mem_filterMap.mpr ⟨_, b, rfl⟩)

/-- An NSEC3 record of `c.` from hash zero to the hash that starts with `hi`. -/
def n3 (salt : Bytes) (hi : UInt8) : RR :=
  .nsec3 ⟨⟨ascii "00000000000000000000000000000000.c."⟩, 1, 0, 0, salt, hi :: List.replicate 19 0, NSecTypeMask.new⟩

/-- A wildcard expansion `x.c.` with the given NSEC3 records. -/
def withNsec3s (l : List RR) : List RR :=
  wZone "." 0 ++ wDelegation "." "c." 1 ++ [wA "x.c.", wSig "x.c." 1 1 "c.",
    wSig "00000000000000000000000000000000.c." 50 2 "c."] ++ l

/-- **C36 is false**, even with one signature over each key set and one key for each zone, if the NSEC3 records have three sets of
parameters: only the first two sets in the proof are used. -/
theorem C36_fails_for_three_parameter_sets (dbg : Bool) :
    (withNsec3s [n3 [] 121, n3 [1] 119, n3 [2] 119]).Perm (withNsec3s [n3 [1] 119, n3 [2] 119, n3 [] 121]) ∧
    NoTagCollision (withNsec3s [n3 [] 121, n3 [1] 119, n3 [2] 119]) ∧ OneKeySig (withNsec3s [n3 [] 121, n3 [1] 119, n3 [2] 119]) ∧
    verifyRRStream dbg wPlatform 5 (withNsec3s [n3 [] 121, n3 [1] 119, n3 [2] 119]) =
      some (.ok ⟨[wA "x.c."], 1000000000, 2000000000, 3600⟩) ∧
    verifyRRStream dbg wPlatform 5 (withNsec3s [n3 [1] 119, n3 [2] 119, n3 [] 121]) = some (.err .invalid) := by
  refine ⟨?_, ?_, ?_, by cases dbg <;> decide +kernel, by cases dbg <;> decide +kernel⟩
  · unfold withNsec3s
    exact (List.perm_append_comm (l₁ := [n3 [] 121]) (l₂ := [n3 [1] 119, n3 [2] 119])).append_left _
  · have h : ∀ k ∈ (withNsec3s [n3 [] 121, n3 [1] 119, n3 [2] 119]).filterMap (fun | .dnskey k => some k | _ => none),
        ∀ k' ∈ (withNsec3s [n3 [] 121, n3 [1] 119, n3 [2] 119]).filterMap (fun | .dnskey k => some k | _ => none),
        k.name = k'.name → k = k' := by decide +kernel
    exact fun s _ k k' a b c _ _ => h k (List.mem_filterMap.mpr ⟨_, a, rfl⟩) k' (List.mem_filterMap.mpr ⟨_, b, rfl⟩) c
  · have h : ∀ s ∈ (withNsec3s [n3 [] 121, n3 [1] 119, n3 [2] 119]).filterMap (fun | .rrsig s => some s | _ => none),
        ∀ s' ∈ (withNsec3s [n3 [] 121, n3 [1] 119, n3 [2] 119]).filterMap (fun | .rrsig s => some s | _ => none),
        s.ty = 48 → s'.ty = 48 → s.name = s'.name → s = s' := by decide +kernel
    exact fun s s' a b => h s (List.mem_filterMap.mpr ⟨_, a, rfl⟩) s' (List.mem_filterMap.mpr ⟨_, b, rfl⟩)

/-- **C36 is false** for the validity window, if there are two good signatures over the same key set: the first one in the proof counts. -/
theorem C36_fails_window (dbg : Bool) :
    (wSig "." 48 0 "." :: earlyStream).Perm (earlyStream ++ [wSig "." 48 0 "."]) ∧
    verifyRRStream dbg wPlatform 5 (wSig "." 48 0 "." :: earlyStream) = some (.ok ⟨[wA "a.c."], 1000000000, 2000000000, 3600⟩) ∧
    verifyRRStream dbg wPlatform 5 (earlyStream ++ [wSig "." 48 0 "."]) = some (.ok ⟨[wA "a.c."], 1100000000, 1900000000, 600⟩) :=
  ⟨List.perm_append_comm (l₁ := [_]), by cases dbg <;> decide +kernel, by cases dbg <;> decide +kernel⟩

/-- **C36.** If all signatures over the key set of a zone (of supported algorithms) have the same times and TTL, two orders of the
same records that are both accepted give the same records, validity window and TTL. Missing: the window and TTL of other proofs
(`C36_fails_window`); for the records no condition is needed (`C36_same_records`). -/
theorem C36_same_result_partial {inp' : List RR} (h : inp.Perm inp') (hS : SameKeyTimes inp)
    {fuel fuel' : Nat} {v v' : Verified} (hv : verifyRRStream dbg p fuel inp = some (.ok v))
    (hv' : verifyRRStream dbg p fuel' inp' = some (.ok v')) :
    (∀ r, r ∈ v.verifiedRrs ↔ r ∈ v'.verifiedRrs) ∧ v.validFrom = v'.validFrom ∧ v.expires = v'.expires ∧
    v.maxCacheTtl = v'.maxCacheTtl :=
  same_result (fun _ => h.mem_iff) hS hv hv'

/-- **C36.** Acceptance does not depend on the order if no two keys of a zone are eligible for the same RRSIG, the signatures over a key
set are all good (or of unsupported algorithms) or all bad and have the same times, and the denials are uniform (the authenticated NSEC3
records of a zone have at most two sets of parameters, and no name has to be denied by two zones). Missing: the excluded proofs (refutations above and in
`C36_fails_for_shared_name`). -/
theorem C36_acceptance_partial {inp' : List RR} (h : inp.Perm inp') (hT : NoTagCollision inp)
    (hK : KeySigsAgree (codeCheck p) p inp) (hS : SameKeyTimes inp) (hu : UniformDenials (codeCheck p) p inp) :
    (∃ fuel v, verifyRRStream dbg p fuel inp = some (.ok v)) ↔ (∃ fuel v, verifyRRStream dbg p fuel inp' = some (.ok v)) :=
  have h := SameFor.of_perm h
  ⟨accepts_perm h hT hK hS hu, accepts_perm h.symm (hT.perm h) (hK.perm h hT) (hS.perm h) ((uniformDenials_perm h hT hK).mp hu)⟩

/-- The example stream with a second signature over the root's key set, also good. -/
def twiceSigned : List RR :=
  wStream ++ [.rrsig ⟨⟨ascii "."⟩, 48, 8, 0, 3600, 2000000000, 1000000000, 20326, ⟨ascii "x."⟩, [1]⟩]

/-- It meets the conditions of both theorems, although it has two signatures over one key set. -/
example : NoTagCollision twiceSigned ∧ KeySigsAgree (codeCheck wPlatform) wPlatform twiceSigned ∧ SameKeyTimes twiceSigned ∧
    UniformDenials (codeCheck wPlatform) wPlatform twiceSigned ∧ ¬ OneKeySig twiceSigned ∧
    verifyRRStream false wPlatform 5 twiceSigned = some (.ok ⟨[wA "a.c."], 1000000000, 2000000000, 3600⟩) := by
  refine ⟨?_, ?_, ?_, ⟨?_, ?_⟩, ?_, by decide +kernel⟩
  · have h : ∀ k ∈ twiceSigned.filterMap (fun | .dnskey k => some k | _ => none),
        ∀ k' ∈ twiceSigned.filterMap (fun | .dnskey k => some k | _ => none), k.name = k'.name → k = k' := by decide +kernel
    exact fun s _ k k' a b c _ _ => h k (List.mem_filterMap.mpr ⟨_, a, rfl⟩) k' (List.mem_filterMap.mpr ⟨_, b, rfl⟩) c
  · intro z hz s _ s' hs' _
    have hz := reached_mem (zs := [rootName, ⟨ascii "c."⟩]) (by decide +kernel) hz
    have h : ∀ z ∈ [rootName, ⟨ascii "c."⟩], ∀ s ∈ keySigs twiceSigned z,
        verifyRrsig wPlatform s (anchoredKeys wPlatform (anchors twiceSigned z) (keysAt twiceSigned z))
          ((keysAt twiceSigned z).map .dnskey) = .ok () := by decide +kernel
    exact Or.inl (h z hz s' hs')
  · have h : ∀ s ∈ twiceSigned.filterMap (fun | .rrsig s => some s | _ => none),
        s.inception = 1000000000 ∧ s.expiration = 2000000000 ∧ s.origTtl = 3600 := by decide +kernel
    intro s s' a b _ _ _ _ _
    obtain ⟨a1, a2, a3⟩ := h s (List.mem_filterMap.mpr ⟨_, a, rfl⟩)
    obtain ⟨b1, b2, b3⟩ := h s' (List.mem_filterMap.mpr ⟨_, b, rfl⟩)
    exact ⟨a1.trans b1.symm, a2.trans b2.symm, a3.trans b3.symm⟩
  · refine fun z _ => ⟨(0, []), (0, []), ?_⟩
    rintro n ⟨⟨_, _, _, _, _, _, h, _⟩, _⟩
    simp [twiceSigned, wStream, wZone, wDelegation, wKey, wSig, wSigWith, wDs, wA] at h
  · intro z s z' s' _ hs _ hx
    have h : ∀ s ∈ twiceSigned.filterMap (fun | .rrsig s => some s | _ => none), s.labels = s.name.labels := by decide +kernel
    exact absurd (h s (List.mem_filterMap.mpr ⟨_, (mem_sigsBy.mp hs.1).1, rfl⟩)) hx.1
  · intro h
    have := h ⟨⟨ascii "."⟩, 48, 8, 0, 3600, 2000000000, 1000000000, 20326, ⟨ascii "x."⟩, [1]⟩
      ⟨⟨ascii "."⟩, 48, 8, 0, 3600, 2000000000, 1000000000, 20326, ⟨ascii "."⟩, [1]⟩ (by decide +kernel) (by decide +kernel) rfl rfl rfl
    exact absurd this (by decide +kernel)

/-- The conditions hold of the example stream with a wildcard, and two orders of it. -/
theorem wildStream_conditions : NoTagCollision (wildStream "a.c." "z.c." [1]) ∧ OneKeySig (wildStream "a.c." "z.c." [1]) ∧
    UniformDenials (codeCheck wPlatform) wPlatform (wildStream "a.c." "z.c." [1]) ∧
    verifyRRStream false wPlatform 5 (wildStream "a.c." "z.c." [1]).reverse =
      some (.ok ⟨[wA "x.c."], 1000000000, 2000000000, 3600⟩) := by
  have hkeys : ∀ k ∈ (wildStream "a.c." "z.c." [1]).filterMap (fun | .dnskey k => some k | _ => none),
      ∀ k' ∈ (wildStream "a.c." "z.c." [1]).filterMap (fun | .dnskey k => some k | _ => none), k.name = k'.name → k = k' := by
    decide +kernel
  have hsigs : ∀ s ∈ (wildStream "a.c." "z.c." [1]).filterMap (fun | .rrsig s => some s | _ => none),
      ∀ s' ∈ (wildStream "a.c." "z.c." [1]).filterMap (fun | .rrsig s => some s | _ => none),
      s.ty = 48 → s'.ty = 48 → s.name = s'.name → s = s' := by decide +kernel
  have hexp : ∀ s ∈ (wildStream "a.c." "z.c." [1]).filterMap (fun | .rrsig s => some s | _ => none),
      (s.labels ≠ s.name.labels ∧ s.ty ≠ 47) → s.keyName = ⟨ascii "c."⟩ := by decide +kernel
  have hn3 : ∀ r ∈ wildStream "a.c." "z.c." [1], r.ty ≠ 50 := by decide +kernel
  have mk : ∀ k, RR.dnskey k ∈ wildStream "a.c." "z.c." [1] →
      k ∈ (wildStream "a.c." "z.c." [1]).filterMap (fun | .dnskey k => some k | _ => none) :=
    fun k h => List.mem_filterMap.mpr ⟨_, h, rfl⟩
  have ms : ∀ s, RR.rrsig s ∈ wildStream "a.c." "z.c." [1] →
      s ∈ (wildStream "a.c." "z.c." [1]).filterMap (fun | .rrsig s => some s | _ => none) :=
    fun s h => List.mem_filterMap.mpr ⟨_, h, rfl⟩
  refine ⟨fun s _ k k' a b c _ _ => hkeys k (mk k a) k' (mk k' b) c,
    fun s s' a b c d e => hsigs s (ms s a) s' (ms s' b) c d e, ⟨?_, ?_⟩, by decide +kernel⟩
  · refine fun z _ => ⟨(0, []), (0, []), ?_⟩
    rintro n ⟨⟨_, _, _, _, _, _, h, _⟩, _⟩
    exact absurd rfl (hn3 _ h)
  · intro z s z' s' _ hs _ hx _ hs' _ hx' name _ _
    obtain ⟨a, b, _⟩ := mem_sigsBy.mp hs.1
    obtain ⟨a', b', _⟩ := mem_sigsBy.mp hs'.1
    rw [← b, ← b', hexp s (ms s a) hx, hexp s' (ms s' a') hx']

example : (wildStream "a.c." "z.c." [1]).Perm (wildStream "a.c." "z.c." [1]).reverse ∧
    NoTagCollision (wildStream "a.c." "z.c." [1]) ∧ OneKeySig (wildStream "a.c." "z.c." [1]) ∧
    UniformDenials (codeCheck wPlatform) wPlatform (wildStream "a.c." "z.c." [1]) ∧
    (∃ v, verifyRRStream false wPlatform 5 (wildStream "a.c." "z.c." [1]) = some (.ok v)) ∧
    ∃ v, verifyRRStream false wPlatform 5 (wildStream "a.c." "z.c." [1]).reverse = some (.ok v) :=
  ⟨(List.reverse_perm _).symm, wildStream_conditions.1, wildStream_conditions.2.1, wildStream_conditions.2.2.1,
    ⟨⟨[wA "x.c."], 1000000000, 2000000000, 3600⟩, by decide +kernel⟩, ⟨_, wildStream_conditions.2.2.2⟩⟩

/-- So do they of a stream with two sets of NSEC3 parameters, of which only one denies the expanded name. -/
example : let inp := withNsec3s [n3 [] 121, n3 [1] 119]
    NoTagCollision inp ∧ OneKeySig inp ∧ UniformDenials (codeCheck wPlatform) wPlatform inp ∧
    inp.Perm (withNsec3s [n3 [1] 119, n3 [] 121]) ∧
    verifyRRStream false wPlatform 5 inp = some (.ok ⟨[wA "x.c."], 1000000000, 2000000000, 3600⟩) ∧
    verifyRRStream false wPlatform 5 (withNsec3s [n3 [1] 119, n3 [] 121]) =
      some (.ok ⟨[wA "x.c."], 1000000000, 2000000000, 3600⟩) := by
  intro inp
  have hkeys : ∀ k ∈ inp.filterMap (fun | .dnskey k => some k | _ => none),
      ∀ k' ∈ inp.filterMap (fun | .dnskey k => some k | _ => none), k.name = k'.name → k = k' := by decide +kernel
  have hsigs : ∀ s ∈ inp.filterMap (fun | .rrsig s => some s | _ => none),
      ∀ s' ∈ inp.filterMap (fun | .rrsig s => some s | _ => none),
      s.ty = 48 → s'.ty = 48 → s.name = s'.name → s = s' := by decide +kernel
  have hexp : ∀ s ∈ inp.filterMap (fun | .rrsig s => some s | _ => none),
      (s.labels ≠ s.name.labels ∧ s.ty ≠ 47) → s.keyName = ⟨ascii "c."⟩ := by decide +kernel
  have hn3 : ∀ n ∈ inp.filterMap (fun | .nsec3 n => some n | _ => none),
      (n.hashIterations, n.salt) = (0, []) ∨ (n.hashIterations, n.salt) = (0, [1]) := by decide +kernel
  have mk : ∀ k, RR.dnskey k ∈ inp → k ∈ inp.filterMap (fun | .dnskey k => some k | _ => none) :=
    fun k h => List.mem_filterMap.mpr ⟨_, h, rfl⟩
  have ms : ∀ s, RR.rrsig s ∈ inp → s ∈ inp.filterMap (fun | .rrsig s => some s | _ => none) :=
    fun s h => List.mem_filterMap.mpr ⟨_, h, rfl⟩
  refine ⟨fun s _ k k' a b c _ _ => hkeys k (mk k a) k' (mk k' b) c,
    fun s s' a b c d e => hsigs s (ms s a) s' (ms s' b) c d e, ⟨?_, ?_⟩, ?_, by decide +kernel, by decide +kernel⟩
  · refine fun z _ => ⟨(0, []), (0, [1]), ?_⟩
    rintro n ⟨⟨_, _, _, _, _, _, h, _⟩, _⟩ _ _
    exact hn3 n (List.mem_filterMap.mpr ⟨_, h, rfl⟩)
  · intro z s z' s' _ hs _ hx _ hs' _ hx' name _ _
    obtain ⟨a, b, _⟩ := mem_sigsBy.mp hs.1
    obtain ⟨a', b', _⟩ := mem_sigsBy.mp hs'.1
    rw [← b, ← b', hexp s (ms s a) hx, hexp s' (ms s' a') hx']
  · exact (List.perm_append_comm (l₁ := [n3 [] 121]) (l₂ := [n3 [1] 119])).append_left _

/-! ## C56 -/

/-- **C56.** An honest stream is accepted: if all reached zones are in order, the root delegates, no zone delegates to itself,
some authenticated record is not a DS, the signatures have a common moment of validity and every wildcard expansion comes with
a denial, `verify_rr_stream` succeeds. -/
theorem C56_complete (h1 : InOrder (codeCheck p) p inp) (h2 : RootDelegates (codeCheck p) inp)
    (h3 : ¬ SelfDelegation (codeCheck p) p inp) (h4 : ∃ r, Authenticated (codeCheck p) p inp r ∧ r.ty ≠ 43)
    (h5 : CommonWindow (codeCheck p) p inp) (h6 : WildcardsDenied (codeCheck p) p inp) :
    ∃ fuel v, verifyRRStream dbg p fuel inp = some (.ok v) :=
  verifyRRStream_accepts h1 h2 h3 h4 h5 h6

/-- **C56**, with good signatures as in RFC 4034. -/
theorem C56_complete_rfc (hn : ProperInput inp) (h1 : InOrder (rfcCheck p) p inp) (h2 : RootDelegates (rfcCheck p) inp)
    (h3 : ¬ SelfDelegation (rfcCheck p) p inp) (h4 : ∃ r, Authenticated (rfcCheck p) p inp r ∧ r.ty ≠ 43)
    (h5 : CommonWindow (rfcCheck p) p inp) (h6 : WildcardsDenied (rfcCheck p) p inp) :
    ∃ fuel v, verifyRRStream dbg p fuel inp = some (.ok v) := by
  have hA := agrees_rfc p inp hn
  obtain ⟨r, h4, h4'⟩ := h4
  exact verifyRRStream_accepts (hA.inOrder.mpr h1) (hA.rootDelegates.mpr h2) (fun h => h3 (hA.selfDelegation.mp h))
    ⟨r, (hA.authenticated r).mpr h4, h4'⟩ (hA.commonWindow.mpr h5) (hA.wildcardsDenied.mpr h6)

/-- **C56.** With uniform denials and no absurd label counts these conditions are also necessary. -/
theorem C56_accept_iff (hl : ∀ s, RR.rrsig s ∈ inp → s.labels ≠ 255) (hu : UniformDenials (codeCheck p) p inp) :
    (∃ fuel v, verifyRRStream dbg p fuel inp = some (.ok v)) ↔
      InOrder (codeCheck p) p inp ∧ RootDelegates (codeCheck p) inp ∧ ¬ SelfDelegation (codeCheck p) p inp ∧
      (∃ r, Authenticated (codeCheck p) p inp r ∧ r.ty ≠ 43) ∧ CommonWindow (codeCheck p) p inp ∧
      WildcardsDenied (codeCheck p) p inp := by
  rw [verifyRRStream_ok_iff hu, inOrder_iff_clean (dbg := dbg) hl]

/-- The wildcard stream meets all conditions. -/
example : let inp := wildStream "a.c." "z.c." [1]
    InOrder (codeCheck wPlatform) wPlatform inp ∧ RootDelegates (codeCheck wPlatform) inp ∧
    ¬ SelfDelegation (codeCheck wPlatform) wPlatform inp ∧
    (∃ r, Authenticated (codeCheck wPlatform) wPlatform inp r ∧ r.ty ≠ 43) ∧ CommonWindow (codeCheck wPlatform) wPlatform inp ∧
    WildcardsDenied (codeCheck wPlatform) wPlatform inp := by
  have hok : verifyRRStream false wPlatform 5 (wildStream "a.c." "z.c." [1]) =
      some (.ok ⟨[wA "x.c."], 1000000000, 2000000000, 3600⟩) := by decide +kernel
  have hsig : ∀ s ∈ (wildStream "a.c." "z.c." [1]).filterMap (fun | .rrsig s => some s | _ => none), s.labels ≠ 255 := by
    decide +kernel
  have hexp : ∀ s ∈ (wildStream "a.c." "z.c." [1]).filterMap (fun | .rrsig s => some s | _ => none),
      (s.labels ≠ s.name.labels ∧ s.ty ≠ 47) → s.keyName = ⟨ascii "c."⟩ := by decide +kernel
  have ms : ∀ s, RR.rrsig s ∈ wildStream "a.c." "z.c." [1] →
      s ∈ (wildStream "a.c." "z.c." [1]).filterMap (fun | .rrsig s => some s | _ => none) :=
    fun s h => List.mem_filterMap.mpr ⟨_, h, rfl⟩
  have hn3 : ∀ r ∈ wildStream "a.c." "z.c." [1], r.ty ≠ 50 := by decide +kernel
  refine (C56_accept_iff (dbg := false) (fun s hs => hsig s (ms s hs)) ⟨?_, ?_⟩).mp ⟨5, _, hok⟩
  · refine fun z _ => ⟨(0, []), (0, []), ?_⟩
    rintro n ⟨⟨_, _, _, _, _, _, h, _⟩, _⟩
    exact absurd rfl (hn3 _ h)
  · intro z s z' s' _ hs _ hx _ hs' _ hx' name _ _
    obtain ⟨a, b, _⟩ := mem_sigsBy.mp hs.1
    obtain ⟨a', b', _⟩ := mem_sigsBy.mp hs'.1
    rw [← b, ← b', hexp s (ms s a) hx, hexp s' (ms s' a') hx']

end Dnssec.Props
