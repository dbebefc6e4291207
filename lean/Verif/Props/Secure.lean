import Verif.Proofs.Secure
import Verif.Proofs.Decide
import Verif.Props.Trust

/-! # C117: what is verified is what RFC 4035 calls secure -/

namespace Dnssec.Props

open Dnssec Spec

variable {dbg : Bool} {p : Platform} {fuel : Nat} {inp : List RR} {v : Verified} {T : Nat}

/-- **C117 (partial).** Every record `verify_rr_stream` returns is secure according to RFC 4035 at every moment from `valid_from` to
`expires`, if the proof is conventional. Missing: other proofs, for which this is false (`C117_fails_*`, and the theorems referred to in
`Conventional`). -/
theorem C117_secure_partial (h : verifyRRStream dbg p fuel inp = some (.ok v)) (hc : Conventional p inp) (h1 : v.validFrom ≤ T)
    (h2 : T ≤ v.expires) (r : RR) (hr : r ∈ v.verifiedRrs) : r ∈ inp ∧ ∃ z, Secure p inp T z r.name r.ty := by
  have ha := C21_chain_of_trust h r hr
  exact ⟨let ⟨_, _, _, _, _, _, a, _⟩ := ha; a, secure_authenticated h hc h1 h2 ha⟩

/-- **C117, the other direction.** If `verify_rr_stream` accepts a proof (any proof), it returns every record in it that is secure at some
moment, except those which only serve to prove others. -/
theorem C117_complete (h : verifyRRStream dbg p fuel inp = some (.ok v)) (z : Name) (r : RR) (hr : r ∈ inp)
    (hs : Secure p inp T z r.name r.ty) (ht : r.ty ≠ 43 ∧ r.ty ≠ 47 ∧ r.ty ≠ 48 ∧ r.ty ≠ 50) : r ∈ v.verifiedRrs := by
  obtain ⟨hz, _, hs⟩ := reached_of_secure h hs
  obtain ⟨s, hs, hn, hty⟩ := hs ht.2.2.1
  obtain ⟨ksig, hk⟩ := C21_all_key_sets h z hz
  exact (C27_exact h r).mpr ⟨⟨z, ksig, s, hz, hk, hs, hr, hn.symm, hty.symm⟩, ht.1, ht.2.1, ht.2.2.2⟩

/-- **C117, both together.** At every moment from `valid_from` to `expires`, what is returned for a conventional proof are exactly its
secure records. -/
theorem C117_exact_partial (h : verifyRRStream dbg p fuel inp = some (.ok v)) (hc : Conventional p inp) (h1 : v.validFrom ≤ T)
    (h2 : T ≤ v.expires) (r : RR) (ht : r.ty ≠ 43 ∧ r.ty ≠ 47 ∧ r.ty ≠ 48 ∧ r.ty ≠ 50) :
    r ∈ v.verifiedRrs ↔ r ∈ inp ∧ ∃ z, Secure p inp T z r.name r.ty :=
  ⟨C117_secure_partial h hc h1 h2 r, fun ⟨hr, z, hs⟩ => C117_complete h z r hr hs ht⟩

/-- The proof with the address of `x.c.`, made from `*.c.`, and an NSEC record from `a.c.` to `z.c.`, is a conventional one. -/
theorem wild_conventional : Conventional wPlatform (wildStream "a.c." "z.c." [1]) := by
  have hsigs : ∀ s, RR.rrsig s ∈ wildStream "a.c." "z.c." [1] →
      RR.rrsig s = wSig "." 48 0 "." ∨ RR.rrsig s = wSig "c." 48 1 "c." ∨ RR.rrsig s = wSig "c." 43 1 "." ∨
      RR.rrsig s = wSig "x.c." 1 1 "c." ∨ RR.rrsig s = wSig "a.c." 47 2 "c." := by
    intro s hs
    simp only [wildStream, wZone, wDelegation, wKey, wDs, wA, List.cons_append, List.nil_append, List.mem_cons,
      List.not_mem_nil, or_false, reduceCtorEq, false_or] at hs
    rcases hs with h | h | h | h | h <;> simp [h]
  have hnsec : ∀ n, RR.nsec n ∈ wildStream "a.c." "z.c." [1] → n = ⟨⟨ascii "a.c."⟩, ⟨ascii "z.c."⟩, NSecTypeMask.fromTypes [1]⟩ := by
    intro n hn
    simpa [wildStream, wZone, wDelegation, wKey, wDs, wA, wSig, wSigWith] using hn
  have hnsec3 : ∀ n, RR.nsec3 n ∉ wildStream "a.c." "z.c." [1] := by
    intro n hn
    simp [wildStream, wZone, wDelegation, wKey, wDs, wA, wSig, wSigWith] at hn
  have hnc : ∀ s name, RR.rrsig s ∈ wildStream "a.c." "z.c." [1] → NextCloser s name → s = wildSig ∧ name = ascii "x.c." := by
    intro s name hs hn
    have := nextCloser_trailing hn
    rcases hsigs s hs with h | h | h | h | h <;>
      (simp only [wSig, wSigWith, RR.rrsig.injEq] at h; subst h; revert this)
    · rw [show Name.trailingNLabels _ _ = none by decide +kernel]; simp
    · rw [show Name.trailingNLabels _ _ = none by decide +kernel]; simp
    · rw [show Name.trailingNLabels _ _ = none by decide +kernel]; simp
    · rw [show Name.trailingNLabels _ _ = some (ascii "x.c.") by decide +kernel]
      intro e
      exact ⟨rfl, (Option.some.inj e).symm⟩
    · rw [show Name.trailingNLabels _ _ = none by decide +kernel]; simp
  have l0 : HasLabels ⟨ascii "."⟩ [] := by decide
  have l1 : HasLabels ⟨ascii "c."⟩ [ascii "c"] := by decide
  have l2 : HasLabels ⟨ascii "x.c."⟩ [ascii "x", ascii "c"] := by decide
  have l3 : HasLabels ⟨ascii "a.c."⟩ [ascii "a", ascii "c"] := by decide
  refine ⟨⟨?_, ?_, ?_, ?_⟩, ?_, ?_, ?_, ?_, ?_, ?_, ?_⟩
  · intro r hr
    have : r.name = ⟨ascii "."⟩ ∨ r.name = ⟨ascii "c."⟩ ∨ r.name = ⟨ascii "x.c."⟩ ∨ r.name = ⟨ascii "a.c."⟩ := by
      have : ∀ r ∈ wildStream "a.c." "z.c." [1],
        r.name = ⟨ascii "."⟩ ∨ r.name = ⟨ascii "c."⟩ ∨ r.name = ⟨ascii "x.c."⟩ ∨ r.name = ⟨ascii "a.c."⟩ := by decide +kernel
      exact this r hr
    rcases this with h | h | h | h <;> rw [h]
    · exact ⟨_, l0⟩
    · exact ⟨_, l1⟩
    · exact ⟨_, l2⟩
    · exact ⟨_, l3⟩
  · intro s hs
    rcases hsigs s hs with h | h | h | h | h <;> (simp only [wSig, wSigWith, RR.rrsig.injEq] at h; subst h)
    · exact ⟨_, l0⟩
    · exact ⟨_, l1⟩
    · exact ⟨_, l0⟩
    · exact ⟨_, l1⟩
    · exact ⟨_, l1⟩
  · intro t ht
    simp [wildStream, wZone, wDelegation, wKey, wSig, wSigWith, wDs, wA] at ht
  · intro s hs r hr r' hr' h1 h2 h3 h4 h5
    have h46 : s.ty ≠ 46 := by
      rcases hsigs s hs with h | h | h | h | h <;> (simp only [wSig, wSigWith, RR.rrsig.injEq] at h; subst h; decide)
    have hty : ∀ r ∈ wildStream "a.c." "z.c." [1], r.ty ≠ 46 → r.ty ≠ 47 → r.ty ∈ [1, 16, 28, 43, 48, 52] := by decide +kernel
    have h47 : ∀ r ∈ wildStream "a.c." "z.c." [1], r.ty = 47 →
        r = .nsec ⟨⟨ascii "a.c."⟩, ⟨ascii "z.c."⟩, NSecTypeMask.fromTypes [1]⟩ := by
      intro r hr ht
      cases r with
      | nsec n => rw [hnsec n hr]
      | _ => simp only [RR.ty] at ht; exact absurd ht (by decide)
    by_cases e : r.ty = 47
    · exact absurd ((h47 r hr e).trans (h47 r' hr' (by rw [h4, ← h2, e])).symm) h5
    · exact .inl (hty r hr (by rw [h2]; exact h46) e)
  · intro s hs
    rcases hsigs s hs with h | h | h | h | h <;> (simp only [wSig, wSigWith, RR.rrsig.injEq] at h; subst h; decide +kernel)
  · intro s hs
    rcases hsigs s hs with h | h | h | h | h <;> (simp only [wSig, wSigWith, RR.rrsig.injEq] at h; subst h; decide +kernel)
  · intro s hs
    rcases hsigs s hs with h | h | h | h | h <;> (simp only [wSig, wSigWith, RR.rrsig.injEq] at h; subst h; decide +kernel)
  · intro s hs
    rcases hsigs s hs with h | h | h | h | h <;> (simp only [wSig, wSigWith, RR.rrsig.injEq] at h; subst h)
    · exact .inl rfl
    · exact .inr (.inl rfl)
    · exact .inl rfl
    · refine .inr (.inr fun pre hp => ⟨ascii "x", ?_⟩)
      rw [show ascii "x.c." = (ascii "x" ++ [46]) ++ ascii "c." by decide +kernel] at hp
      exact (List.append_cancel_right hp).symm
    · refine .inr (.inr fun pre hp => ⟨ascii "a", ?_⟩)
      rw [show ascii "a.c." = (ascii "a" ++ [46]) ++ ascii "c." by decide +kernel] at hp
      exact (List.append_cancel_right hp).symm
  · intro s name hs _ hn
    obtain ⟨rfl, rfl⟩ := hnc s name hs hn
    refine ⟨fun n h => ?_, fun n _ _ h => absurd h (hnsec3 n)⟩
    rw [hnsec n h]
    decide +kernel
  · intro s s' name hs hs' _ _ hn hn'
    rw [(hnc s name hs hn).1, (hnc s' name hs' hn').1]
  · intro s name hs _ hn
    obtain ⟨rfl, rfl⟩ := hnc s name hs hn
    refine ⟨fun n h _ _ s' hs' e1 e2 => ?_, fun n h => absurd h (hnsec3 n)⟩
    rcases hsigs s' hs' with h | h | h | h | h <;> (simp only [wSig, wSigWith, RR.rrsig.injEq] at h; subst h)
    · exact absurd e2 (by decide)
    · exact absurd e2 (by decide)
    · exact absurd e2 (by decide)
    · exact absurd e2 (by decide)
    · rfl

/-- It is accepted, and the address is secure, as a record made from a wildcard. -/
example : verifyRRStream false wPlatform 5 (wildStream "a.c." "z.c." [1]) = some (.ok ⟨[wA "x.c."], 1000000000, 2000000000, 3600⟩) ∧
    Conventional wPlatform (wildStream "a.c." "z.c." [1]) ∧
    ∃ z, Secure wPlatform (wildStream "a.c." "z.c." [1]) 1500000000 z ⟨ascii "x.c."⟩ 1 :=
  have h : verifyRRStream false wPlatform 5 (wildStream "a.c." "z.c." [1]) =
    some (.ok ⟨[wA "x.c."], 1000000000, 2000000000, 3600⟩) := by decide +kernel
  ⟨h, wild_conventional, (C117_secure_partial (T := 1500000000) h wild_conventional (by decide) (by decide) (wA "x.c.") (by simp)).2⟩

/-- **C117 is false** if the name of a zone ends in the text of another's: what `oogle.com.` signs for `google.com.` is returned, but not
secure at any time. -/
theorem C117_fails_for_textual_suffix (dbg : Bool) :
    verifyRRStream dbg wPlatform 5 hijack = some (.ok ⟨[wA "google.com."], 1000000000, 2000000000, 3600⟩) ∧
    ∀ T z, ¬ Secure wPlatform hijack T z (wA "google.com.").name 1 := by
  obtain ⟨h1, h2, l1, l2, h3⟩ := C22_fails_for_textual_suffix dbg
  refine ⟨h1, fun T z h => ?_⟩
  have key : ∀ s z, RR.rrsig s ∈ hijack → s.name = (wA "google.com.").name → s.ty = 1 → s.keyName = z → ¬ NameWithin s.name z := by
    rintro s z hs hn ht hk ⟨nl, zl, a, b, c⟩
    rw [hn] at a
    rw [← hk, h2 s hs hn ht] at b
    rw [a.unique l1, b.unique l2] at c
    exact h3 c
  generalize hn : (wA "google.com.").name = n at h
  generalize ht : (1 : UInt16) = ty at h
  cases h with
  | rootKeys => exact absurd ht (by decide)
  | zoneKeys => exact absurd ht (by decide)
  | signed _ sig k _ hm hk _ hw => exact key sig z hm hn.symm ht.symm hk hw
  | wildcardNsec _ sig k name n _ hm hk _ hw => exact key sig z hm hn.symm ht.symm hk hw
  | wildcardNsec3 _ sig k name n _ hm hk _ hw => exact key sig z hm hn.symm ht.symm hk hw

/-- **C117 is false** if a key set is signed in the name of another zone: here the root's, and nothing at all is secure. -/
theorem C117_fails_foreign_signer :
    verifyRRStream true wPlatform 5 foreignSigner = some (.ok ⟨[wA "a.c."], 1000000000, 2000000000, 3600⟩) ∧
    ∀ T z n ty, ¬ Secure wPlatform foreignSigner T z n ty := by
  obtain ⟨h1, h2⟩ := C66_fails_foreign_signer
  refine ⟨h1, fun T z n ty h => ?_⟩
  induction h with
  | rootKeys sig k hm hn _ hk =>
    rw [h2 sig hm hn] at hk
    exact absurd hk (by decide)
  | zoneKeys _ _ _ _ _ _ _ _ _ _ _ _ _ _ _ _ ih => exact ih
  | signed _ _ _ _ _ _ _ _ _ _ _ _ ih => exact ih
  | wildcardNsec _ _ _ _ _ _ _ _ _ _ _ _ _ _ _ _ _ ih => exact ih
  | wildcardNsec3 _ _ _ _ _ _ _ _ _ _ _ _ _ _ _ _ _ ih => exact ih

end Dnssec.Props
