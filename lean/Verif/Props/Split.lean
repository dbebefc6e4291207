import Verif.Proofs.Split
import Verif.Props.Chain
import Verif.Props.Denials
import Verif.Props.Sorting
import Verif.Props.Validation

/-! # C102: a part of a proof is a proof of a part -/

namespace Dnssec.Props

open Dnssec Dnssec.Spec

variable {dbg : Bool} {p : Platform} {fuel fuel' : Nat} {inp : List RR} {v v' : Verified} {K : RRSig → Bool}

/-- **C102, what is verified.** If signatures are left out of an accepted proof, but none over key sets or delegations, and what remains is
accepted, then exactly the records are verified that have one of the signatures that remain. The result is valid at least as long. -/
theorem C102_fewer_signatures (h : verifyRRStream dbg p fuel inp = some (.ok v))
    (h' : verifyRRStream dbg p fuel' (withSigs inp K) = some (.ok v'))
    (hK : ∀ s, RR.rrsig s ∈ inp → s.ty = 48 ∨ s.ty = 43 → K s = true) (h46 : ∀ s, K s = true → s.ty ≠ 46) :
    (∀ r, r ∈ v'.verifiedRrs ↔ r ∈ v.verifiedRrs ∧
      ∃ z ksig s, Reached (codeCheck p) p inp z ∧ ZoneKeysOk (codeCheck p) p inp z ksig ∧ SignedBy (codeCheck p) inp z s ∧ K s = true ∧
        r.name = s.name ∧ r.ty = s.ty) ∧
    v'.validFrom ≤ v.validFrom ∧ v.expires ≤ v'.expires ∧ v.maxCacheTtl ≤ v'.maxCacheTtl := by
  refine ⟨fun r => ?_, ?_, ?_, ?_⟩
  · rw [C27_exact h, C27_exact h', withSigs_authenticated hK h46]
    constructor
    · rintro ⟨⟨z, ksig, s, a, b, c, d, e, f, g⟩, ht⟩
      exact ⟨⟨⟨z, ksig, s, a, b, c, e, f, g⟩, ht⟩, z, ksig, s, a, b, c, d, f, g⟩
    · rintro ⟨⟨⟨_, _, _, _, _, _, e, _⟩, ht⟩, z, ksig, s, a, b, c, d, f, g⟩
      exact ⟨⟨z, ksig, s, a, b, c, d, e, f, g⟩, ht⟩
  · obtain ⟨s, hs, e⟩ := (C24_window h').1.1
    rw [← e]
    exact (C24_window h).1.2 s (withSigs_used hK h46 hs)
  · obtain ⟨s, hs, e⟩ := (C24_window h').2.1.1
    rw [← e]
    exact (C24_window h).2.1.2 s (withSigs_used hK h46 hs)
  · obtain ⟨s, hs, e⟩ := (C25_ttl h').1
    rw [UInt32.le_iff_toNat_le, ← e]
    exact (C25_ttl h).2 s (withSigs_used hK h46 hs)

/-- The signatures left to prove what `s` is over: `s` and those over keys, delegations and denials. -/
def only (s t : RRSig) : Bool := t = s || t.ty = 48 || t.ty = 43 || t.ty = 47 || t.ty = 50

private theorem alone (h : verifyRRStream dbg p fuel inp = some (.ok v)) {r : RR} (hr : r ∈ v.verifiedRrs) {z : Name} {s : RRSig}
    (hz : Reached (codeCheck p) p inp z) (hs : SignedBy (codeCheck p) inp z s) (hrn : r.name = s.name) (hrt : r.ty = s.ty)
    (hd : Expanded s → ∀ name, s.name.trailingNLabels (s.labels + 1) = some name →
      DeniedIn (codeCheck p) p (withSigs inp (only s)) z name s.ty) :
    ProvesAlone dbg p inp v r.name r.ty (withSigs inp (only s)) := by
  obtain ⟨hin, t43, t47, t50⟩ := (C27_exact h r).mp hr
  obtain ⟨hc, _⟩ := verifyRRStream_ok_needs h
  have hacc : ∀ z t, Reached (codeCheck p) p inp z → SignedBy (codeCheck p) inp z t → Acceptable dbg t := by
    intro z t hz ht
    rcases ((hc z hz).2 t ht.1).2 with e | e
    · have e1 : verifyRrsig p t (keysAt inp z) (rrset inp t.name t.ty) = .err .unsupported := e
      have e2 : verifyRrsig p t (keysAt inp z) (rrset inp t.name t.ty) = .ok () := ht.2
      rw [e1] at e2; cases e2
    · exact e.2
  have hK : ∀ t, RR.rrsig t ∈ inp → t.ty = 48 ∨ t.ty = 43 → only s t = true := by
    rintro t _ (e | e) <;> simp [only, e]
  have hs46 : s.ty ≠ 46 := (hacc z s hz hs).1
  have h46 : ∀ t, only s t = true → t.ty ≠ 46 := by
    intro t ht e
    simp only [only, e, Bool.or_eq_true, decide_eq_true_eq] at ht
    rcases ht with (((ht | ht) | ht) | ht) | ht
    · exact hs46 (ht ▸ e)
    all_goals exact absurd ht (by decide)
  have hkey : only s s = true := by simp [only]
  have h43 : s.ty ≠ 43 := hrt ▸ t43
  have hrin : r ∈ inp := by obtain ⟨_, _, _, _, _, _, e, _⟩ := hin; exact e
  obtain ⟨fuel', v', h'⟩ := withSigs_accepts hK h46 h ⟨z, s, hz, hs, hkey, h43, r, hrin, hrn, hrt⟩ (by
    intro z' t hz' ht hkt ht43 hx name hname
    have hts : t = s := by
      simp only [only, Bool.or_eq_true, decide_eq_true_eq] at hkt
      rcases hkt with (((e | e) | e) | e) | e
      · exact e
      · exact absurd e (mem_sigsBy.mp ht.1).2.2
      · exact absurd e ht43
      · exact absurd e hx.2
      · exact absurd e ((hacc z' t hz' ht).2.2 ht43 hx).1
    subst hts
    have e1 := (mem_sigsBy.mp ht.1).2.1
    have e2 := (mem_sigsBy.mp hs.1).2.1
    rw [← e1, e2]
    exact hd hx name hname)
  obtain ⟨h1, h2⟩ := C102_fewer_signatures h h' hK h46
  refine ⟨List.filter_sublist, fuel', v', h', fun x => ?_, h2⟩
  rw [h1, C27_exact h]
  constructor
  · rintro ⟨⟨⟨_, _, _, _, _, _, e, _⟩, a, b, c⟩, z', ksig, t, hz', _, ht, hkt, hn, hty⟩
    have hts : t = s := by
      simp only [only, Bool.or_eq_true, decide_eq_true_eq] at hkt
      rcases hkt with (((e | e) | e) | e) | e
      · exact e
      · exact absurd e (mem_sigsBy.mp ht.1).2.2
      · exact absurd (hty.trans e) a
      · exact absurd (hty.trans e) b
      · exact absurd (hty.trans e) c
    subst hts
    exact ⟨e, hn.trans hrn.symm, hty.trans hrt.symm⟩
  · rintro ⟨hx, hn, hty⟩
    obtain ⟨⟨ksig, hk⟩, _⟩ := hc z hz
    refine ⟨⟨⟨z, ksig, s, hz, hk, hs, hx, hn.trans hrn, hty.trans hrt⟩, ?_⟩, z, ksig, s, hz, hk, hs, hkey, hn.trans hrn, hty.trans hrt⟩
    rw [hty]
    exact ⟨t43, t47, t50⟩

/-- **C102, records that are not expansions of wildcards.** Every such record that an accepted proof verifies has a proof of its own, made of
records of that proof, which verifies its RRset and nothing else. -/
theorem C102_alone_partial (h : verifyRRStream dbg p fuel inp = some (.ok v)) {r : RR} (hr : r ∈ v.verifiedRrs) {z : Name} {s : RRSig}
    (hz : Reached (codeCheck p) p inp z) (hs : SignedBy (codeCheck p) inp z s) (hrn : r.name = s.name) (hrt : r.ty = s.ty)
    (hx : ¬ Expanded s) : ∃ part, ProvesAlone dbg p inp v r.name r.ty part :=
  ⟨_, alone h hr hz hs hrn hrt fun a => absurd a hx⟩

/-- **C102.** The same for all records, if no two zones need the denial of the same name, and no zone uses more than two sets of NSEC3
parameters. Missing: the other inputs, for which it is false (`C102_fails_for_shared_name`). -/
theorem C102_each_alone_partial (h : verifyRRStream dbg p fuel inp = some (.ok v)) (hu : UniformDenials (codeCheck p) p inp) {r : RR}
    (hr : r ∈ v.verifiedRrs) : ∃ part, ProvesAlone dbg p inp v r.name r.ty part := by
  obtain ⟨⟨z, ksig, s, hz, hk, hs, hrin, hrn, hrt⟩, t43, _⟩ := (C27_exact h r).mp hr
  refine ⟨_, alone h hr hz hs hrn hrt fun hx name hname => ?_⟩
  have hden := wildcardsDenied_of_ok hu h z s hz hs (hrt ▸ t43) hx name hname
  have hK : ∀ t, RR.rrsig t ∈ inp → t.ty = 48 ∨ t.ty = 43 → only s t = true := by
    rintro t _ (e | e) <;> simp [only, e]
  have hs46 : s.ty ≠ 46 := by
    rcases (((verifyRRStream_ok_needs h).1 z hz).2 s hs.1).2 with e | e
    · have e1 : verifyRrsig p s (keysAt inp z) (rrset inp s.name s.ty) = .err .unsupported := e
      have e2 : verifyRrsig p s (keysAt inp z) (rrset inp s.name s.ty) = .ok () := hs.2
      rw [e1] at e2; cases e2
    · exact e.2.1
  have h46 : ∀ t, only s t = true → t.ty ≠ 46 := by
    intro t ht e
    simp only [only, e, Bool.or_eq_true, decide_eq_true_eq] at ht
    rcases ht with (((ht | ht) | ht) | ht) | ht
    · exact hs46 (ht ▸ e)
    all_goals exact absurd ht (by decide)
  have auth : ∀ x : RR, x.ty = 47 ∨ x.ty = 50 →
      (Authenticated (codeCheck p) p (withSigs inp (only s)) x ↔ Authenticated (codeCheck p) p inp x) := by
    intro x hx
    rw [withSigs_authenticated hK h46]
    constructor
    · rintro ⟨z, k, t, a, b, c, _, d⟩; exact ⟨z, k, t, a, b, c, d⟩
    · rintro ⟨z, k, t, a, b, c, d, e, f⟩
      refine ⟨z, k, t, a, b, c, ?_, d, e, f⟩
      rw [f] at hx
      rcases hx with e | e <;> simp [only, e]
  rcases hden with ⟨n, a, b⟩ | ⟨n, a, b, c, d⟩
  · exact Or.inl ⟨n, (auth _ (Or.inl rfl)).mpr a, b⟩
  · refine Or.inr ⟨n, (auth _ (Or.inr rfl)).mpr a, b, c, ?_⟩
    simp only [fun n' : NSec3 => auth (.nsec3 n') (Or.inr rfl)]
    exact d

/-- A stream that verifies an address and a text of two names, and can be split into a stream for each. -/
def twoRecords : List RR := wStream ++ [.txt ⟨⟨ascii "b.c."⟩, [104, 105]⟩, wSig "b.c." 16 2 "c."]

example : verifyRRStream false wPlatform 5 twoRecords =
      some (.ok ⟨[wA "a.c.", .txt ⟨⟨ascii "b.c."⟩, [104, 105]⟩], 1000000000, 2000000000, 3600⟩) ∧
    ProvesAlone false wPlatform twoRecords ⟨[wA "a.c.", .txt ⟨⟨ascii "b.c."⟩, [104, 105]⟩], 1000000000, 2000000000, 3600⟩ ⟨ascii "a.c."⟩ 1
      (wStream ++ [.txt ⟨⟨ascii "b.c."⟩, [104, 105]⟩]) := by
  refine ⟨by decide +kernel, by decide +kernel, 5, ⟨[wA "a.c."], 1000000000, 2000000000, 3600⟩, by decide +kernel, fun r => ?_,
    by decide, by decide, by decide⟩
  constructor
  · intro h
    rw [List.mem_singleton] at h
    subst h
    exact ⟨by decide +kernel, rfl, rfl⟩
  · rintro ⟨a, b, c⟩
    have : ∀ r ∈ twoRecords, r.name = ⟨ascii "a.c."⟩ → r.ty = 1 → r ∈ [wA "a.c."] := by decide +kernel
    exact this r a b c

/-- That part is what remains without the signature of the text. -/
example : ∃ s, RR.rrsig s = wSig "a.c." 1 2 "c." ∧
    withSigs twoRecords (only s) = wStream ++ [.txt ⟨⟨ascii "b.c."⟩, [104, 105]⟩] ∧ ¬ Expanded s :=
  ⟨⟨⟨ascii "a.c."⟩, 1, 8, 2, 3600, 2000000000, 1000000000, 20326, ⟨ascii "c."⟩, [1]⟩, rfl, by decide +kernel,
    fun h => absurd h.1 (by decide +kernel)⟩

/-- The conditions of `C102_each_alone_partial` hold of a stream with two expansions of a wildcard. -/
example : (∃ v, verifyRRStream false wPlatform 5 twoNeeds = some (.ok v) ∧ wA "x.c." ∈ v.verifiedRrs) ∧
    UniformDenials (codeCheck wPlatform) wPlatform twoNeeds := by
  refine ⟨⟨⟨[wA "x.c.", .txt ⟨⟨ascii "x.c."⟩, [104, 105]⟩], 1000000000, 2000000000, 3600⟩, by decide +kernel, by decide +kernel⟩, ?_, ?_⟩
  · have hno : ∀ r ∈ twoNeeds, r.ty ≠ 50 := by decide +kernel
    intro z _
    refine ⟨(0, []), (0, []), fun n hn => ?_⟩
    obtain ⟨⟨_, _, _, _, _, _, e, _⟩, _⟩ := hn
    exact absurd rfl (hno _ e)
  · have hexp : ∀ s ∈ twoNeeds.filterMap (fun | .rrsig s => some s | _ => none),
        (s.labels ≠ s.name.labels ∧ s.ty ≠ 47) → s.keyName = ⟨ascii "c."⟩ := by decide +kernel
    have ms : ∀ s, RR.rrsig s ∈ twoNeeds → s ∈ twoNeeds.filterMap (fun | .rrsig s => some s | _ => none) :=
      fun s h => List.mem_filterMap.mpr ⟨_, h, rfl⟩
    intro z s z' s' _ hs _ hx _ hs' _ hx' name _ _
    obtain ⟨a, b, _⟩ := mem_sigsBy.mp hs.1
    obtain ⟨a', b', _⟩ := mem_sigsBy.mp hs'.1
    rw [← b, ← b', hexp s (ms s a) hx, hexp s' (ms s' a') hx']

/-- The toy platform, where a signature over no records is not good. -/
def somePlatform : Platform :=
  testPlatform (fun b => (b.drop 1).take 1 ++ List.replicate 19 0) (fun b => if b.take 1 = [0] then hintDigest else [7])
    (fun _ _ msg sig => decide (sig = [1] ∧ 30 < msg.length))

/-- **C102 is false**: a proof verifies an address whose denial is taken from another zone (`C29_fails_for_shared_name`). No part of this
proof verifies the address without the record of the other zone. -/
theorem C102_fails_for_shared_name :
    verifyRRStream false somePlatform 5 sharedStream =
      some (.ok ⟨[wA "x.b.c.", .txt ⟨⟨ascii "x.b.c."⟩, [104, 105]⟩], 1000000000, 2000000000, 3600⟩) ∧
    ¬ ∃ part, ProvesAlone false somePlatform sharedStream
      ⟨[wA "x.b.c.", .txt ⟨⟨ascii "x.b.c."⟩, [104, 105]⟩], 1000000000, 2000000000, 3600⟩ ⟨ascii "x.b.c."⟩ 1 part := by
  refine ⟨by decide +kernel, ?_⟩
  rintro ⟨part, hsub, fuel, v, h, hv, _⟩
  have hin : ∀ r ∈ part, r ∈ sharedStream := fun r hr => hsub.subset hr
  have hsig : ∀ s, RR.rrsig s ∈ part → s ∈ sharedStream.filterMap (fun | .rrsig s => some s | _ => none) :=
    fun s hs => List.mem_filterMap.mpr ⟨_, hin _ hs, rfl⟩
  have hno3 : ∀ r ∈ sharedStream, r.ty ≠ 50 := by decide +kernel
  -- the text is not verified, so its signature is not used
  have hexp : ∀ s ∈ sharedStream.filterMap (fun | .rrsig s => some s | _ => none), (s.labels ≠ s.name.labels ∧ s.ty ≠ 47) →
      s.ty = 1 ∧ s.keyName = ⟨ascii "b.c."⟩ ∨ .rrsig s = wSig "x.b.c." 16 2 "c." := by decide +kernel
  have hkeys : keysAt sharedStream ⟨ascii "c."⟩ = [⟨⟨ascii "c."⟩, 257, 3, 8, [1, 3, 0x4A, 0x5A]⟩] := by decide +kernel
  have hone : ∀ z s, Reached (codeCheck somePlatform) somePlatform part z → SignedBy (codeCheck somePlatform) part z s → Expanded s →
      s.keyName = ⟨ascii "b.c."⟩ := by
    intro z s hz hs hx
    obtain ⟨a, b, _⟩ := mem_sigsBy.mp hs.1
    rcases hexp s (hsig s a) hx with e | e
    · exact e.2
    · exfalso
      injection e with e
      have hset : rrset part s.name s.ty = [] := by
        apply List.eq_nil_iff_forall_not_mem.mpr
        intro x hx
        obtain ⟨x1, x2, x3⟩ := mem_rrset.mp hx
        obtain ⟨⟨ksig, hk⟩, _⟩ := (verifyRRStream_ok_needs h).1 z hz
        have := (C27_exact h x).mpr ⟨⟨z, ksig, s, hz, hk, hs, x1, x2, x3⟩, by rw [x3, e]; decide, by rw [x3, e]; decide, by rw [x3, e]; decide⟩
        have := ((hv x).mp this).2.2
        rw [x3, e] at this
        exact absurd this (by decide)
      have hgood : verifyRrsig somePlatform s (keysAt part z) (rrset part s.name s.ty) = .ok () := hs.2
      have hksub : (keysAt part z).Sublist (keysAt sharedStream z) := hsub.filterMap _
      rw [hset] at hgood
      rw [← b, e] at hksub hgood
      simp only at hksub hgood
      rw [hkeys] at hksub
      have hcases : keysAt part ⟨ascii "c."⟩ = [] ∨ keysAt part ⟨ascii "c."⟩ = [⟨⟨ascii "c."⟩, 257, 3, 8, [1, 3, 0x4A, 0x5A]⟩] := by
        revert hksub
        generalize keysAt part ⟨ascii "c."⟩ = ks
        intro hksub
        cases hksub with
        | cons _ h => exact Or.inl (List.sublist_nil.mp h)
        | cons_cons _ h => rw [List.sublist_nil.mp h]; exact Or.inr rfl
      rcases hcases with e' | e'
      · rw [e'] at hgood; revert hgood; decide +kernel
      · rw [e'] at hgood; revert hgood; decide +kernel
  have hu : UniformDenials (codeCheck somePlatform) somePlatform part := by
    refine ⟨fun z _ => ⟨(0, []), (0, []), fun n hn => ?_⟩, ?_⟩
    · obtain ⟨⟨_, _, _, _, _, _, e, _⟩, _⟩ := hn
      exact absurd rfl (hno3 _ (hin _ e))
    · intro z s z' s' hz hs _ hx hz' hs' _ hx' _ _ _
      rw [← (mem_sigsBy.mp hs.1).2.1, ← (mem_sigsBy.mp hs'.1).2.1, hone z s hz hs hx, hone z' s' hz' hs' hx']
  obtain ⟨⟨z, ksig, s, hz, hk, hs, hrin, hrn, hrt⟩, _⟩ :=
    (C27_exact h (wA "x.b.c.")).mp ((hv _).mpr ⟨by decide +kernel, rfl, rfl⟩)
  have hs1 : ∀ s ∈ sharedStream.filterMap (fun | .rrsig s => some s | _ => none), (wA "x.b.c.").name = s.name → (wA "x.b.c.").ty = s.ty →
      (s.labels ≠ s.name.labels ∧ s.ty ≠ 47) ∧ s.ty ≠ 43 ∧ s.keyName = ⟨ascii "b.c."⟩ ∧
        s.name.trailingNLabels (s.labels + 1) = some (ascii "x.b.c.") := by decide +kernel
  obtain ⟨a, b, _⟩ := mem_sigsBy.mp hs.1
  obtain ⟨hx, h43, hkn, hname⟩ := hs1 s (hsig s a) hrn hrt
  rcases wildcardsDenied_of_ok hu h z s hz hs h43 hx _ hname with ⟨n, ⟨_, _, _, _, _, _, e, _⟩, ⟨pre, hp⟩, _⟩ | ⟨n, ⟨_, _, _, _, _, _, e, _⟩, _⟩
  · have hn : ∀ r ∈ sharedStream, r.ty = 47 → endsWith r.name.bytes (ascii "b.c.") = false := by decide +kernel
    have h1 := hn _ (hin _ e) rfl
    rw [← b, hkn] at hp
    have h2 := (endsWith_iff n.name.bytes (ascii "b.c.")).mpr ⟨pre, hp⟩
    rw [show (RR.nsec n).name = n.name from rfl, h2] at h1
    cases h1
  · exact absurd rfl (hno3 _ (hin _ e))

end Dnssec.Props
