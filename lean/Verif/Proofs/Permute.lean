import Verif.Proofs.Complete

/-! # The order of the input -/

namespace Dnssec

open Spec

variable {dbg : Bool} {p : Platform} {inp inp' : List RR}

theorem firstEligible_of_mem {s : RRSig} {keys : List DnsKey} {k : DnsKey} (hm : k ∈ keys) (he : Eligible s k)
    (hu : ∀ k' ∈ keys, Eligible s k' → k' = k) : FirstEligible s keys k := by
  induction keys with
  | nil => simp at hm
  | cons x xs ih =>
    by_cases hx : x = k
    · exact ⟨[], xs, by rw [hx]; rfl, he, by simp⟩
    · have hxk : ¬ Eligible s x := fun h => hx (hu x (by simp) h)
      rcases List.mem_cons.mp hm with rfl | hm
      · exact absurd rfl hx
      · obtain ⟨pre, post, e, _, h⟩ := ih hm (fun k' hk' => hu k' (List.mem_cons_of_mem _ hk'))
        refine ⟨x :: pre, post, by rw [e]; rfl, he, ?_⟩
        intro k' hk'
        rcases List.mem_cons.mp hk' with rfl | hk'
        · exact hxk
        · exact h k' hk'

theorem firstEligible_mem {s : RRSig} {keys : List DnsKey} {k : DnsKey} (h : FirstEligible s keys k) : k ∈ keys ∧ Eligible s k := by
  obtain ⟨pre, post, e, h1, _⟩ := h
  exact ⟨by rw [e]; simp, h1⟩

/-- The check depends only on which keys there are, if no two can be confused. -/
theorem verifyRrsig_keys {s : RRSig} {keys keys' : List DnsKey} {r r' : List RR} (hr : r.Perm r')
    (hk : ∀ k, k ∈ keys ↔ k ∈ keys') (hu : ∀ k ∈ keys, ∀ k' ∈ keys, Eligible s k → Eligible s k' → k = k') :
    (verifyRrsig p s keys r = .ok () ↔ verifyRrsig p s keys' r' = .ok ()) ∧
    (verifyRrsig p s keys r = .err .unsupported ↔ verifyRrsig p s keys' r' = .err .unsupported) := by
  rw [verifyRrsig_perm p s keys hr]
  constructor
  · rw [verifyRrsig_ok_iff, verifyRrsig_ok_iff]
    unfold GoodSigM
    constructor
    · rintro ⟨a, k, msg, b, c⟩
      obtain ⟨b1, b2⟩ := firstEligible_mem b
      exact ⟨a, k, msg, firstEligible_of_mem ((hk k).mp b1) b2 (fun k' h' e => hu k' ((hk k').mpr h') k b1 e b2), c⟩
    · rintro ⟨a, k, msg, b, c⟩
      obtain ⟨b1, b2⟩ := firstEligible_mem b
      exact ⟨a, k, msg, firstEligible_of_mem ((hk k).mpr b1) b2 (fun k' h' e => hu k' h' k ((hk k).mpr b1) e b2), c⟩
  · rw [verifyRrsig_unsupported_iff, verifyRrsig_unsupported_iff]
    simp only [hk]

theorem rrset_perm (h : inp.Perm inp') (n : Name) (ty : UInt16) : (rrset inp n ty).Perm (rrset inp' n ty) := h.filter _

/-- The same records as far as verification looks at them: the same ones, and the sets that are signed and the keys with the same
number of copies. -/
structure SameFor (inp inp' : List RR) : Prop where
  mem : ∀ r, r ∈ inp ↔ r ∈ inp'
  sets : ∀ s, RR.rrsig s ∈ inp → (rrset inp s.name s.ty).Perm (rrset inp' s.name s.ty)
  keys : ∀ z, (keysAt inp z).Perm (keysAt inp' z)

theorem SameFor.of_perm (h : inp.Perm inp') : SameFor inp inp' :=
  ⟨fun _ => h.mem_iff, fun _ _ => h.filter _, fun _ => h.filterMap _⟩

theorem SameFor.symm (h : SameFor inp inp') : SameFor inp' inp :=
  ⟨fun r => (h.mem r).symm, fun s hs => (h.sets s ((h.mem _).mpr hs)).symm, fun z => (h.keys z).symm⟩

theorem mem_keysAt_perm (h : SameFor inp inp') (z : Name) (k : DnsKey) : k ∈ keysAt inp z ↔ k ∈ keysAt inp' z := by
  rw [mem_keysAt, mem_keysAt, h.mem _]

theorem keysAt_unique (hT : NoTagCollision inp) {z : Name} {s : RRSig} (hs : RR.rrsig s ∈ inp) :
    ∀ k ∈ keysAt inp z, ∀ k' ∈ keysAt inp z, Eligible s k → Eligible s k' → k = k' := by
  intro k hk k' hk' e e'
  obtain ⟨a, b⟩ := mem_keysAt.mp hk
  obtain ⟨a', b'⟩ := mem_keysAt.mp hk'
  exact hT s hs k k' a a' (b.trans b'.symm) e e'

theorem sigsBy_perm (h : SameFor inp inp') (z : Name) (s : RRSig) : s ∈ sigsBy inp z ↔ s ∈ sigsBy inp' z := by
  rw [mem_sigsBy, mem_sigsBy, h.mem _]

theorem check_perm (h : SameFor inp inp') (hT : NoTagCollision inp) (z : Name) {s : RRSig} (hs : RR.rrsig s ∈ inp) :
    (verifyRrsig p s (keysAt inp z) (rrset inp s.name s.ty) = .ok () ↔
      verifyRrsig p s (keysAt inp' z) (rrset inp' s.name s.ty) = .ok ()) ∧
    (verifyRrsig p s (keysAt inp z) (rrset inp s.name s.ty) = .err .unsupported ↔
      verifyRrsig p s (keysAt inp' z) (rrset inp' s.name s.ty) = .err .unsupported) :=
  verifyRrsig_keys (h.sets s hs) (mem_keysAt_perm h z) (keysAt_unique hT hs)

theorem signedBy_perm (h : SameFor inp inp') (hT : NoTagCollision inp) (z : Name) (s : RRSig) :
    SignedBy (codeCheck p) inp z s ↔ SignedBy (codeCheck p) inp' z s := by
  unfold SignedBy
  rw [← sigsBy_perm h]
  constructor
  · rintro ⟨a, b⟩; exact ⟨a, (check_perm h hT z (mem_sigsBy.mp a).1).1.mp b⟩
  · rintro ⟨a, b⟩; exact ⟨a, (check_perm h hT z (mem_sigsBy.mp a).1).1.mpr b⟩

theorem mem_anchors_perm (h : SameFor inp inp') (z : Name) (d : DS) : d ∈ anchors inp z ↔ d ∈ anchors inp' z := by
  unfold anchors
  split
  · exact Iff.rfl
  · rw [mem_dsAt, mem_dsAt, h.mem _]

theorem anchored_perm (h : SameFor inp inp') (z : Name) (k : DnsKey) :
    Anchored p (anchors inp z) k ↔ Anchored p (anchors inp' z) k := by
  unfold Anchored
  simp only [mem_anchors_perm h]

theorem mem_anchoredKeys_perm (h : SameFor inp inp') (z : Name) (k : DnsKey) :
    k ∈ anchoredKeys p (anchors inp z) (keysAt inp z) ↔ k ∈ anchoredKeys p (anchors inp' z) (keysAt inp' z) := by
  unfold anchoredKeys
  simp only [List.mem_filter, decide_eq_true_eq, mem_keysAt_perm h, anchored_perm h]

theorem keysAt_perm (h : SameFor inp inp') (z : Name) : ((keysAt inp z).map RR.dnskey).Perm ((keysAt inp' z).map RR.dnskey) :=
  (h.keys z).map _

/-- With at most one candidate signature, it is the one. -/
theorem establishes_one {inp : List RR} (h1 : OneKeySig inp) (z : Name) (s : RRSig) :
    ZoneKeysOk (codeCheck p) p inp z s ↔
      (∃ d ∈ anchors inp z, d.digestType = 1 ∨ d.digestType = 2 ∨ d.digestType = 4) ∧ RR.rrsig s ∈ inp ∧ s.name = z ∧ s.ty = 48 ∧
      verifyRrsig p s (anchoredKeys p (anchors inp z) (keysAt inp z)) ((keysAt inp z).map RR.dnskey) = .ok () := by
  unfold ZoneKeysOk Establishes
  constructor
  · rintro ⟨a, before, after, e, b, c⟩
    have hm := mem_keySigs.mp (show s ∈ keySigs inp z by rw [e]; simp)
    exact ⟨a, hm.1, hm.2.1, hm.2.2, c⟩
  · rintro ⟨a, hs, hn, ht, c⟩
    refine ⟨a, ?_⟩
    have hmem : s ∈ keySigs inp z := mem_keySigs.mpr ⟨hs, hn, ht⟩
    cases hk : keySigs inp z with
    | nil => rw [hk] at hmem; simp at hmem
    | cons x xs =>
      have hx := mem_keySigs.mp (show x ∈ keySigs inp z by rw [hk]; simp)
      have : x = s := h1 x s hx.1 hs hx.2.2 ht (hx.2.1.trans hn.symm)
      exact ⟨[], xs, by rw [this]; rfl, by simp, c⟩

theorem Spec.OneKeySig.perm (h : SameFor inp inp') (h1 : OneKeySig inp) : OneKeySig inp' :=
  fun s s' a b => h1 s s' ((h.mem _).mpr a) ((h.mem _).mpr b)

theorem Spec.NoTagCollision.perm (h : SameFor inp inp') (h1 : NoTagCollision inp) : NoTagCollision inp' :=
  fun s a k k' b c => h1 s ((h.mem _).mpr a) k k' ((h.mem _).mpr b) ((h.mem _).mpr c)

theorem Spec.SameKeyTimes.perm (h : SameFor inp inp') (h1 : SameKeyTimes inp) : SameKeyTimes inp' :=
  fun s s' a b => h1 s s' ((h.mem _).mpr a) ((h.mem _).mpr b)

/-- The check of a signature over the key set of `z`. -/
def keyCheck (p : Platform) (inp : List RR) (z : Name) (s : RRSig) : Res VErr Unit :=
  verifyRrsig p s (anchoredKeys p (anchors inp z) (keysAt inp z)) ((keysAt inp z).map RR.dnskey)

theorem keyCheck_perm (h : SameFor inp inp') (hT : NoTagCollision inp) (z : Name) {s : RRSig} (hs : RR.rrsig s ∈ inp) :
    (keyCheck p inp z s = .ok () ↔ keyCheck p inp' z s = .ok ()) ∧
    (keyCheck p inp z s = .err .unsupported ↔ keyCheck p inp' z s = .err .unsupported) := by
  refine verifyRrsig_keys (keysAt_perm h z) (mem_anchoredKeys_perm h z) ?_
  intro k hk k' hk'
  exact keysAt_unique hT hs k (List.mem_filter.mp hk).1 k' (List.mem_filter.mp hk').1

/-- The signatures over the key set of `z` agree. -/
def AgreeAt (p : Platform) (inp : List RR) (z : Name) : Prop :=
  ∀ s ∈ keySigs inp z, ∀ s' ∈ keySigs inp z, keyCheck p inp z s = .ok () →
    keyCheck p inp z s' = .ok () ∨ keyCheck p inp z s' = .err .unsupported

theorem AgreeAt.perm (h : SameFor inp inp') (hT : NoTagCollision inp) {z : Name} (hA : AgreeAt p inp z) : AgreeAt p inp' z := by
  have conv : ∀ s, s ∈ keySigs inp' z ↔ s ∈ keySigs inp z := by
    intro s; rw [mem_keySigs, mem_keySigs, h.mem _]
  intro s hs s' hs' hg
  rw [conv] at hs hs'
  have a := keyCheck_perm (p := p) h hT z (mem_keySigs.mp hs).1
  have b := keyCheck_perm (p := p) h hT z (mem_keySigs.mp hs').1
  rcases hA s hs s' hs' (a.1.mpr hg) with c | c
  · exact Or.inl (b.1.mp c)
  · exact Or.inr (b.2.mp c)

/-- If they agree, one good one is enough. -/
theorem keysOk_iff {z : Name} (hA : AgreeAt p inp z) : (∃ k, ZoneKeysOk (codeCheck p) p inp z k) ↔
    (∃ d ∈ anchors inp z, d.digestType = 1 ∨ d.digestType = 2 ∨ d.digestType = 4) ∧ ∃ s ∈ keySigs inp z, keyCheck p inp z s = .ok () := by
  unfold ZoneKeysOk Establishes
  constructor
  · rintro ⟨k, a, before, after, e, _, c⟩
    exact ⟨a, k, by rw [e]; simp, c⟩
  · rintro ⟨a, s, hs, hg⟩
    have hall : ∀ s' ∈ keySigs inp z, keyCheck p inp z s' = .ok () ∨ keyCheck p inp z s' = .err .unsupported :=
      fun s' hs' => hA s hs s' hs' hg
    have split : ∀ l : List RRSig, s ∈ l → (∀ s' ∈ l, keyCheck p inp z s' = .ok () ∨ keyCheck p inp z s' = .err .unsupported) →
        ∃ k before after, l = before ++ k :: after ∧ (∀ s' ∈ before, keyCheck p inp z s' = .err .unsupported) ∧
          keyCheck p inp z k = .ok () := by
      intro l
      induction l with
      | nil => intro h; simp at h
      | cons x xs ih =>
        intro hm hl
        rcases hl x (by simp) with hx | hx
        · exact ⟨x, [], xs, rfl, by simp, hx⟩
        · have hm' : s ∈ xs := by
            rcases List.mem_cons.mp hm with rfl | hm
            · rw [hg] at hx; simp at hx
            · exact hm
          obtain ⟨k, before, after, e, b, c⟩ := ih hm' (fun s' hs' => hl s' (List.mem_cons_of_mem _ hs'))
          refine ⟨k, x :: before, after, by rw [e]; rfl, ?_, c⟩
          intro s' hs'
          rcases List.mem_cons.mp hs' with rfl | hs'
          · exact hx
          · exact b s' hs'
    obtain ⟨k, before, after, e, b, c⟩ := split _ hs hall
    exact ⟨k, a, before, after, e, b, c⟩

theorem zoneKeysOk_perm (h : SameFor inp inp') (hT : NoTagCollision inp) {z : Name} (hA : AgreeAt p inp z) :
    (∃ k, ZoneKeysOk (codeCheck p) p inp z k) ↔ (∃ k, ZoneKeysOk (codeCheck p) p inp' z k) := by
  rw [keysOk_iff hA, keysOk_iff (hA.perm h hT)]
  simp only [mem_anchors_perm h]
  refine and_congr Iff.rfl (exists_congr fun s => ?_)
  have conv : s ∈ keySigs inp' z ↔ s ∈ keySigs inp z := by rw [mem_keySigs, mem_keySigs, h.mem _]
  rw [conv]
  refine and_congr_right fun hs => ?_
  exact (keyCheck_perm (p := p) h hT z (mem_keySigs.mp hs).1).1

theorem reached_perm (h : SameFor inp inp') (hT : NoTagCollision inp) (hK : KeySigsAgree (codeCheck p) p inp) (z : Name) :
    Reached (codeCheck p) p inp z ↔ Reached (codeCheck p) p inp' z := by
  constructor
  · intro hz
    induction hz with
    | root => exact .root
    | delegated z ksig sig h1 h2 h3 h4 ih =>
      obtain ⟨k, hk⟩ := (zoneKeysOk_perm h hT (hK z h1)).mp ⟨ksig, h2⟩
      exact .delegated z k sig ih hk ((signedBy_perm h hT z sig).mp h3) h4
  · intro hz
    induction hz with
    | root => exact .root
    | delegated z ksig sig h1 h2 h3 h4 ih =>
      obtain ⟨k, hk⟩ := (zoneKeysOk_perm h hT (hK z ih)).mpr ⟨ksig, h2⟩
      exact .delegated z k sig ih hk ((signedBy_perm h hT z sig).mpr h3) h4

theorem Spec.KeySigsAgree.perm (h : SameFor inp inp') (hT : NoTagCollision inp) (hK : KeySigsAgree (codeCheck p) p inp) :
    KeySigsAgree (codeCheck p) p inp' :=
  fun z hz => AgreeAt.perm h hT (hK z ((reached_perm h hT hK z).mpr hz))

theorem authenticated_perm (h : SameFor inp inp') (hT : NoTagCollision inp) (hK : KeySigsAgree (codeCheck p) p inp) (r : RR) :
    Authenticated (codeCheck p) p inp r ↔ Authenticated (codeCheck p) p inp' r := by
  constructor
  · rintro ⟨z, k, s, h1, h2, h3, h4, h5⟩
    obtain ⟨k', hk'⟩ := (zoneKeysOk_perm h hT (hK z h1)).mp ⟨k, h2⟩
    exact ⟨z, k', s, (reached_perm h hT hK z).mp h1, hk', (signedBy_perm h hT z s).mp h3, (h.mem _).mp h4, h5⟩
  · rintro ⟨z, k, s, h1, h2, h3, h4, h5⟩
    have h1 := (reached_perm h hT hK z).mpr h1
    obtain ⟨k', hk'⟩ := (zoneKeysOk_perm h hT (hK z h1)).mpr ⟨k, h2⟩
    exact ⟨z, k', s, h1, hk', (signedBy_perm h hT z s).mpr h3, (h.mem _).mpr h4, h5⟩

theorem good_supported {s : RRSig} {keys : List DnsKey} {records : List RR} (h : verifyRrsig p s keys records = .ok ()) :
    Supported s.alg := by
  obtain ⟨_, k, msg, _, _, h2⟩ := (verifyRrsig_ok_iff p s keys records).mp h
  unfold Supported
  rcases h2 with ⟨_, _, h', _⟩ | ⟨_, _, h', _⟩ | ⟨h', _⟩ | ⟨h', _⟩ | ⟨h', _⟩ <;> simp [h']

theorem zoneKeysOk_sig {z : Name} {s : RRSig} (h : ZoneKeysOk (codeCheck p) p inp z s) :
    RR.rrsig s ∈ inp ∧ s.name = z ∧ s.ty = 48 ∧ Supported s.alg := by
  obtain ⟨_, before, after, e, _, hg⟩ := h
  have hm := mem_keySigs.mp (show s ∈ keySigs inp z by rw [e]; simp)
  exact ⟨hm.1, hm.2.1, hm.2.2, good_supported hg⟩

/-- For every signature used with one order there is one with the same times used with the other order. -/
theorem used_perm (h : SameFor inp inp') (hT : NoTagCollision inp) (hK : KeySigsAgree (codeCheck p) p inp) (hS : SameKeyTimes inp)
    {s : RRSig} (hs : Used (codeCheck p) p inp' s) :
    ∃ s', Used (codeCheck p) p inp s' ∧ s.inception = s'.inception ∧ s.expiration = s'.expiration := by
  obtain ⟨z, hz, hk | hk⟩ := hs
  · have hz := (reached_perm h hT hK z).mpr hz
    obtain ⟨k, hk'⟩ := (zoneKeysOk_perm h hT (hK z hz)).mpr ⟨s, hk⟩
    obtain ⟨a1, a2, a3, a4⟩ := zoneKeysOk_sig hk
    obtain ⟨b1, b2, b3, b4⟩ := zoneKeysOk_sig hk'
    obtain ⟨c1, c2, _⟩ := hS s k ((h.mem _).mpr a1) b1 a3 b3 (a2.trans b2.symm) a4 b4
    exact ⟨k, ⟨z, hz, Or.inl hk'⟩, c1, c2⟩
  · exact ⟨s, ⟨z, (reached_perm h hT hK z).mpr hz, Or.inr ((signedBy_perm h hT z s).mpr hk)⟩, rfl, rfl⟩

theorem clean_perm (h : SameFor inp inp') (hT : NoTagCollision inp) (hK : KeySigsAgree (codeCheck p) p inp) (hc : Clean dbg p inp) :
    Clean dbg p inp' := by
  intro z hz
  have hz := (reached_perm h hT hK z).mpr hz
  obtain ⟨hk, hs⟩ := hc z hz
  refine ⟨(zoneKeysOk_perm h hT (hK z hz)).mp hk, fun s h' => ?_⟩
  have hmem := (sigsBy_perm h z s).mpr h'
  obtain ⟨a, b⟩ := hs s hmem
  refine ⟨a, ?_⟩
  rcases b with b | ⟨b, c⟩
  · exact Or.inl ((check_perm h hT z (mem_sigsBy.mp hmem).1).2.mp b)
  · exact Or.inr ⟨(signedBy_perm h hT z s).mp b, c⟩

/-- Necessary conditions for acceptance. -/
theorem verifyRRStream_ok_needs {fuel : Nat} {v : Verified} (h : verifyRRStream dbg p fuel inp = some (.ok v)) :
    Clean dbg p inp ∧ RootDelegates (codeCheck p) inp ∧ ¬ SelfDelegation (codeCheck p) p inp ∧
    (∃ r, Authenticated (codeCheck p) p inp r ∧ r.ty ≠ 43) ∧ CommonWindow (codeCheck p) p inp := by
  obtain ⟨st, hF, hne, hlt, _⟩ := verifyRRStream_ok h
  refine ⟨fun z hz => ⟨hF.keys z hz, hF.sigs z hz⟩, ?_, ?_, ?_, ?_⟩
  · unfold verifyRRStream at h
    cases hz : zoneLoop dbg p inp fuel [dot] VState.init with
    | none => rw [hz] at h; simp at h
    | some r =>
      cases r with
      | ok st => exact zoneLoop_ok_delegates hz
      | err e => rw [hz] at h; simp at h
      | panic => rw [hz] at h; simp at h
  · rintro ⟨z, hz, s, hs, ht, hn⟩
    exact hF.noSelf z hz s hs ht hn
  · obtain ⟨r, hr⟩ := List.exists_mem_of_ne_nil _ hne
    obtain ⟨sig, ⟨z, hz, hs⟩, hd, hr⟩ := (hF.eff.res r).mp hr
    obtain ⟨hr1, hr2, hr3⟩ := mem_rrset.mp hr
    obtain ⟨ksig, hk⟩ := hF.keys z hz
    exact ⟨r, ⟨z, ksig, sig, hz, hk, hs, hr1, hr2, hr3⟩, by rw [hr3]; exact hd⟩
  · intro s t hs ht
    have conv : ∀ s, Used (codeCheck p) p inp s → ((∃ z, Reached (codeCheck p) p inp z ∧ ZoneKeysOk (codeCheck p) p inp z s) ∨
        (∃ z, Reached (codeCheck p) p inp z ∧ SignedBy (codeCheck p) inp z s)) := by
      rintro s ⟨z, a, b | b⟩
      · exact Or.inl ⟨z, a, b⟩
      · exact Or.inr ⟨z, a, b⟩
    have h1 := hF.eff.inceptionGe s (conv s hs)
    have h2 := hF.eff.expiryLe t (conv t ht)
    rw [resolveTime_eq] at h1 h2
    omega

/-- Together they are sufficient when there are no wildcard expansions. -/
theorem verifyRRStream_ok_iff_of_no_wildcards
    (hw : ∀ z s, Reached (codeCheck p) p inp z → SignedBy (codeCheck p) inp z s → s.ty ≠ 43 → ¬ Expanded s) :
    (∃ fuel v, verifyRRStream dbg p fuel inp = some (.ok v)) ↔
      Clean dbg p inp ∧ RootDelegates (codeCheck p) inp ∧ ¬ SelfDelegation (codeCheck p) p inp ∧
      (∃ r, Authenticated (codeCheck p) p inp r ∧ r.ty ≠ 43) ∧ CommonWindow (codeCheck p) p inp := by
  constructor
  · rintro ⟨fuel, v, h⟩
    exact verifyRRStream_ok_needs h
  · rintro ⟨h1, h2, h3, h4, h5⟩
    exact verifyRRStream_accepts' h1 h2 h3 h4 h5 (fun z s a b c d => absurd d (hw z s a b c))

end Dnssec
