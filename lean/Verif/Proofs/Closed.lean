import Verif.Proofs.Complete
import Verif.Proofs.Permute
import Verif.Proofs.Decide

/-! # Transport of the specification between notions of good signatures, and finite sets of zones -/

namespace Dnssec

open Spec

variable {dbg : Bool} {p : Platform} {inp : List RR} {S : SigCheck}

theorem Agrees.rootDelegates (h : Agrees p inp S) : RootDelegates (codeCheck p) inp ↔ RootDelegates S inp := by
  unfold RootDelegates
  simp only [h.signedBy]

theorem Agrees.selfDelegation (h : Agrees p inp S) : SelfDelegation (codeCheck p) p inp ↔ SelfDelegation S p inp := by
  unfold SelfDelegation
  simp only [h.signedBy, h.reached]

theorem Agrees.commonWindow (h : Agrees p inp S) : CommonWindow (codeCheck p) p inp ↔ CommonWindow S p inp := by
  unfold CommonWindow
  simp only [h.used]

theorem Agrees.deniedIn (h : Agrees p inp S) (z : Name) (n : Bytes) (ty : UInt16) :
    DeniedIn (codeCheck p) p inp z n ty ↔ DeniedIn S p inp z n ty := by
  unfold DeniedIn
  simp only [h.authenticated]

theorem Agrees.wildcardsDenied (h : Agrees p inp S) : WildcardsDenied (codeCheck p) p inp ↔ WildcardsDenied S p inp := by
  unfold WildcardsDenied
  simp only [h.reached, h.signedBy, h.deniedIn]

theorem Agrees.unsupported (h : Agrees p inp S) {z : Name} {s : RRSig} (hs : s ∈ sigsBy inp z) :
    (codeCheck p).unsupported s (keysAt inp z) (rrset inp s.name s.ty) ↔
      S.unsupported s (keysAt inp z) (rrset inp s.name s.ty) :=
  (h s (mem_sigsBy.mp hs).1 _ _ (fun _ hr => mem_rrset.mp hr)).2

theorem Agrees.inOrder (h : Agrees p inp S) : InOrder (codeCheck p) p inp ↔ InOrder S p inp := by
  unfold InOrder
  constructor
  · intro a z hz
    obtain ⟨b, c⟩ := a z ((h.reached z).mpr hz)
    refine ⟨b.imp fun k hk => (h.zoneKeysOk z k).mp hk, fun s hs => ?_⟩
    have := c s hs
    rw [h.unsupported hs, h.signedBy] at this
    exact this
  · intro a z hz
    obtain ⟨b, c⟩ := a z ((h.reached z).mp hz)
    refine ⟨b.imp fun k hk => (h.zoneKeysOk z k).mpr hk, fun s hs => ?_⟩
    have := c s hs
    rw [← h.unsupported hs, ← h.signedBy] at this
    exact this

/-! ### Exactly when a stream is accepted -/

theorem inOrder_iff_clean (hl : ∀ s, RR.rrsig s ∈ inp → s.labels ≠ 255) : InOrder (codeCheck p) p inp ↔ Clean dbg p inp := by
  refine ⟨clean_of_inOrder, fun h z hz => ?_⟩
  obtain ⟨a, b⟩ := h z hz
  refine ⟨a, fun s hs => ?_⟩
  obtain ⟨c, d⟩ := b s hs
  refine ⟨(endsWith_iff _ _).mp c, d.imp id ?_⟩
  rintro ⟨e, f1, _, f3⟩
  refine ⟨e, f1, fun hd hx => ?_⟩
  obtain ⟨g1, _, g3⟩ := f3 hd hx
  refine ⟨g1, ?_⟩
  have hne := hl s (mem_sigsBy.mp hs).1
  have hne' : s.labels.toNat ≠ 255 := fun e => hne (UInt8.toNat_inj.mp e)
  have := UInt8.le_iff_toNat_le.mp g3
  rw [UInt8.toNat_add] at this
  change (s.labels.toNat + 1) % 256 ≤ _ at this
  have := s.labels.toNat_lt
  omega

theorem wildcardsDenied_of_ok {fuel : Nat} {v : Verified} (hu : UniformDenials (codeCheck p) p inp)
    (h : verifyRRStream dbg p fuel inp = some (.ok v)) : WildcardsDenied (codeCheck p) p inp := by
  obtain ⟨st, hF, _, _, hp, _⟩ := verifyRRStream_ok h
  intro z s hz hs hd hx name hname
  have hkn : s.keyName = z := (mem_sigsBy.mp hs.1).2.1
  have hneed : (⟨name, s.keyName, s.ty⟩ : Need) ∈ st.needs := by
    rw [hF.eff.needs]
    exact ⟨s, ⟨z, hz, hs⟩, hd, hx, rfl, rfl, hname⟩
  obtain ⟨o, ho, hon, hset⟩ :=
    proofLoop_ok (by simp) hp _ (List.mem_reverse.mpr ((p.sortNeeds_perm st.needs).mem_iff.mpr hneed))
  rw [List.mem_reverse, (p.sortNeeds_perm st.needs).mem_iff, hF.eff.needs] at ho
  obtain ⟨s', ⟨z', hz', hs'⟩, hd', hx', hzo, _, hname'⟩ := ho
  have hkn' : s'.keyName = z' := (mem_sigsBy.mp hs'.1).2.1
  have hzz : z = z' := hu.2 z s z' s' hz hs hd hx hz' hs' hd' hx' name hname (hname'.trans (congrArg some hon))
  have hauth : ∀ x, x ∈ st.res → Authenticated (codeCheck p) p inp x := by
    intro x hx
    obtain ⟨s', ⟨z', hz', hs'⟩, _, hx'⟩ := (hF.eff.res x).mp hx
    obtain ⟨a, b, c⟩ := mem_rrset.mp hx'
    obtain ⟨ksig, hk⟩ := hF.keys z' hz'
    exact ⟨z', ksig, s', hz', hk, hs', a, b, c⟩
  have hoz : o.zone = z := by rw [hzo, hkn', hzz]
  rw [hoz] at hset
  rcases hset with ⟨n, a, b, c⟩ | ⟨n, a, b, c⟩
  · exact Or.inl ⟨n, hauth _ a, (endsWith_iff _ _).mp b, c⟩
  · exact Or.inr ⟨n, hauth _ a, (endsWith_iff _ _).mp b, c, hu.1 z hz⟩

theorem verifyRRStream_ok_iff (hu : UniformDenials (codeCheck p) p inp) :
    (∃ fuel v, verifyRRStream dbg p fuel inp = some (.ok v)) ↔
      Clean dbg p inp ∧ RootDelegates (codeCheck p) inp ∧ ¬ SelfDelegation (codeCheck p) p inp ∧
      (∃ r, Authenticated (codeCheck p) p inp r ∧ r.ty ≠ 43) ∧ CommonWindow (codeCheck p) p inp ∧
      WildcardsDenied (codeCheck p) p inp := by
  constructor
  · rintro ⟨fuel, v, h⟩
    obtain ⟨a, b, c, d, e⟩ := verifyRRStream_ok_needs h
    exact ⟨a, b, c, d, e, wildcardsDenied_of_ok hu h⟩
  · rintro ⟨h1, h2, h3, h4, h5, h6⟩
    exact verifyRRStream_accepts' h1 h2 h3 h4 h5 h6

theorem deniedIn_perm {inp' : List RR} (h : SameFor inp inp') (hT : NoTagCollision inp) (hK : KeySigsAgree (codeCheck p) p inp) (z : Name)
    (n : Bytes) (ty : UInt16) : DeniedIn (codeCheck p) p inp z n ty ↔ DeniedIn (codeCheck p) p inp' z n ty := by
  unfold DeniedIn
  simp only [authenticated_perm h hT hK]

theorem wildcardsDenied_perm {inp' : List RR} (h : SameFor inp inp') (hT : NoTagCollision inp) (hK : KeySigsAgree (codeCheck p) p inp) :
    WildcardsDenied (codeCheck p) p inp ↔ WildcardsDenied (codeCheck p) p inp' := by
  unfold WildcardsDenied
  simp only [reached_perm h hT hK, signedBy_perm h hT, deniedIn_perm h hT hK]

theorem uniformDenials_perm {inp' : List RR} (h : SameFor inp inp') (hT : NoTagCollision inp) (hK : KeySigsAgree (codeCheck p) p inp) :
    UniformDenials (codeCheck p) p inp ↔ UniformDenials (codeCheck p) p inp' := by
  unfold UniformDenials
  simp only [authenticated_perm h hT hK, reached_perm h hT hK, signedBy_perm h hT]

/-- Acceptance does not depend on the order of the records. -/
theorem accepts_perm {inp' : List RR} (h : SameFor inp inp') (hT : NoTagCollision inp) (hK : KeySigsAgree (codeCheck p) p inp)
    (hS : SameKeyTimes inp)
    (hu : UniformDenials (codeCheck p) p inp) (ha : ∃ fuel v, verifyRRStream dbg p fuel inp = some (.ok v)) :
    ∃ fuel v, verifyRRStream dbg p fuel inp' = some (.ok v) := by
  obtain ⟨a, ⟨s, b1, b2⟩, c, ⟨r, d1, d2⟩, e, f⟩ := (verifyRRStream_ok_iff hu).mp ha
  refine (verifyRRStream_ok_iff ((uniformDenials_perm h hT hK).mp hu)).mpr
    ⟨clean_perm h hT hK a, ⟨s, (signedBy_perm h hT _ _).mp b1, b2⟩, ?_, ⟨r, (authenticated_perm h hT hK r).mp d1, d2⟩, ?_,
      (wildcardsDenied_perm h hT hK).mp f⟩
  · rintro ⟨z, hz, s, hs, hr⟩
    exact c ⟨z, (reached_perm h hT hK z).mpr hz, s, (signedBy_perm h hT z s).mpr hs, hr⟩
  · intro s t hs ht
    obtain ⟨s', hs', e1, _⟩ := used_perm h hT hK hS hs
    obtain ⟨t', ht', _, e2⟩ := used_perm h hT hK hS ht
    rw [e1, e2]
    exact e s' t' hs' ht'

/-! ### Finite sets of zones that contain all reached ones -/

/-- `zs` contains the root and every name its members could delegate to. -/
def closedUnder (inp : List RR) (zs : List Name) : Bool :=
  decide (rootName ∈ zs) && zs.all fun z => (sigsBy inp z).all fun s => decide (s.ty = 43 → s.name ∈ zs)

theorem reached_mem {zs : List Name} (hc : closedUnder inp zs = true) {z : Name} (hz : Reached S p inp z) : z ∈ zs := by
  unfold closedUnder at hc
  simp only [Bool.and_eq_true, decide_eq_true_eq, List.all_eq_true] at hc
  induction hz with
  | root => exact hc.1
  | delegated z ksig sig _ _ h3 h4 ih => exact hc.2 z ih sig h3.1 h4

end Dnssec
