import Verif.Proofs.Permute

/-! # Adding records to a proof -/

namespace Dnssec

open Spec

variable {dbg dbg' : Bool} {p : Platform} {inp inp' : List RR}

theorem signedBy_mono (hsub : ∀ r ∈ inp, r ∈ inp') (hc : Clean dbg' p inp') {z : Name} (hz : Reached (codeCheck p) p inp' z) {s : RRSig}
    (hs : SignedBy (codeCheck p) inp z s) : SignedBy (codeCheck p) inp' z s := by
  obtain ⟨h1, h2, h3⟩ := mem_sigsBy.mp hs.1
  rcases ((hc z hz).2 s (mem_sigsBy.mpr ⟨hsub _ h1, h2, h3⟩)).2 with h | h
  · exact absurd (good_supported hs.2) ((verifyRrsig_unsupported_iff p s _ _).mp h).2.2.2
  · exact h.1

theorem reached_mono (hsub : ∀ r ∈ inp, r ∈ inp') (hc : Clean dbg' p inp') {z : Name} (hz : Reached (codeCheck p) p inp z) :
    Reached (codeCheck p) p inp' z := by
  induction hz with
  | root => exact .root
  | delegated z ksig sig _ _ h3 h4 ih =>
    obtain ⟨k, hk⟩ := (hc z ih).1
    exact .delegated z k sig ih hk (signedBy_mono hsub hc ih h3) h4

theorem authenticated_mono (hsub : ∀ r ∈ inp, r ∈ inp') (hc : Clean dbg' p inp') {r : RR} (hr : Authenticated (codeCheck p) p inp r) :
    Authenticated (codeCheck p) p inp' r := by
  obtain ⟨z, _, sig, h1, _, h3, h4, h5, h6⟩ := hr
  have hz := reached_mono hsub hc h1
  obtain ⟨k, hk⟩ := (hc z hz).1
  exact ⟨z, k, sig, hz, hk, signedBy_mono hsub hc hz h3, hsub _ h4, h5, h6⟩

/-- Every signature used is still used, or another one with the same times and TTL. -/
theorem used_mono (hsub : ∀ r ∈ inp, r ∈ inp') (hc : Clean dbg' p inp') (hK : SameKeyTimes inp') {s : RRSig}
    (hs : Used (codeCheck p) p inp s) :
    ∃ s', Used (codeCheck p) p inp' s' ∧ s.inception = s'.inception ∧ s.expiration = s'.expiration ∧ s.origTtl = s'.origTtl := by
  obtain ⟨z, hz, h | h⟩ := hs
  · have hz' := reached_mono hsub hc hz
    obtain ⟨k, hk⟩ := (hc z hz').1
    obtain ⟨a1, a2, a3, a4⟩ := zoneKeysOk_sig h
    obtain ⟨b1, b2, b3, b4⟩ := zoneKeysOk_sig hk
    exact ⟨k, ⟨z, hz', Or.inl hk⟩, hK s k (hsub _ a1) b1 a3 b3 (a2.trans b2.symm) a4 b4⟩
  · have hz' := reached_mono hsub hc hz
    exact ⟨s, ⟨z, hz', Or.inr (signedBy_mono hsub hc hz' h)⟩, rfl, rfl, rfl⟩

theorem Spec.OneKeySig.times (h : OneKeySig inp) : SameKeyTimes inp := by
  intro s s' a b c d e _ _
  obtain rfl := h s s' a b c d e
  exact ⟨rfl, rfl, rfl⟩

theorem Spec.OneKeySig.agree (h : OneKeySig inp) : KeySigsAgree (codeCheck p) p inp := by
  intro z _ s hs s' hs' hg
  obtain ⟨a, b, c⟩ := mem_keySigs.mp hs
  obtain ⟨a', b', c'⟩ := mem_keySigs.mp hs'
  obtain rfl := h s s' a a' c c' (b.trans b'.symm)
  exact Or.inl hg

end Dnssec
