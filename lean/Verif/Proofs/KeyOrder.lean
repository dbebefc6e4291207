import Verif.Proofs.Honest
import Verif.Proofs.Debug
import Verif.Proofs.Unsupported

/-! # The order of the signatures over key sets decides -/

namespace Dnssec

open Spec

variable {dbg : Bool} {p : Platform} {w : World} {inp : List RR}

/-! ### No panic -/

theorem sigLoop_calm (hl : ∀ s, RR.rrsig s ∈ inp → s.ty ≠ 47 → s.labels ≠ 255) (zone : Bytes) : ∀ (sigs : List RRSig) (st : VState),
    (∀ s ∈ sigs, RR.rrsig s ∈ inp) → sigLoop dbg p inp zone sigs st ≠ .panic
  | [], st, _ => by simp [sigLoop]
  | s :: sigs, st, hm => by
    have hm' : ∀ x ∈ sigs, RR.rrsig x ∈ inp := fun x hx => hm x (List.mem_cons_of_mem _ hx)
    rw [sigLoop]
    split
    · simp
    · split
      · exact sigLoop_calm hl zone sigs st hm'
      · simp
      · rename_i h; exact absurd h (verifyRrsig_no_panic _ _ _ _)
      · cases ha : acceptSig dbg inp s (st.note s) with
        | ok st' => exact sigLoop_calm hl zone sigs st' hm'
        | err e => simp [Res.bind]
        | panic =>
          exfalso
          unfold acceptSig at ha
          split at ha
          · simp at ha
          split at ha
          · split at ha <;> simp at ha
          · simp only [] at ha
            split at ha
            · rename_i hc
              split at ha
              · simp at ha
              · have hne : s.labels ≠ 255 := hl s (hm s (by simp)) hc.2
                have e : labelsPlusOne dbg s.labels = .ok (s.labels + 1) := by simp [labelsPlusOne, hne]
                rw [e] at ha
                simp only [Res.bind] at ha
                cases ht : s.name.trailingNLabels (s.labels + 1) with
                | none => rw [ht] at ha; simp at ha
                | some x => rw [ht] at ha; simp at ha
            · simp at ha

theorem doZone_calm (hl : ∀ s, RR.rrsig s ∈ inp → s.ty ≠ 47 → s.labels ≠ 255) (zone : Bytes) (ds : List DS) (st : VState) :
    doZone dbg p inp zone ds st ≠ .panic := by
  unfold doZone
  cases h : verifyDnskeys p (dnskeyRrsigs inp zone) (if zone = [dot] then rootHints else ds) (zoneKeys inp zone) with
  | ok s =>
    refine sigLoop_calm hl _ _ _ fun x hx => ?_
    rw [show zone = (⟨zone⟩ : Name).bytes from rfl, zoneRrsigs_eq] at hx
    exact (mem_sigsBy.mp hx).1
  | err e => simp [Res.bind]
  | panic => exact absurd h (verifyDnskeys_no_panic _ _ _ _)

theorem zoneLoop_calm (hl : ∀ s, RR.rrsig s ∈ inp → s.ty ≠ 47 → s.labels ≠ 255) : ∀ (fuel : Nat) (zone : Bytes) (st : VState),
    zoneLoop dbg p inp fuel zone st ≠ some .panic := by
  intro fuel
  induction fuel with
  | zero =>
    intro zone st
    rw [zoneLoop.eq_def]
    simp only []
    split <;> simp
  | succ fuel ih =>
    intro zone st
    rw [zoneLoop.eq_def]
    simp only []
    split
    · split
      · exact ih _ _
      · simp
      · rename_i h; exact absurd h (doZone_calm hl _ _ _)
    · simp

/-- Without a signature that claims 255 labels there is no panic. -/
theorem verifyRRStream_calm (hl : ∀ s, RR.rrsig s ∈ inp → s.ty ≠ 47 → s.labels ≠ 255) (fuel : Nat) :
    verifyRRStream dbg p fuel inp ≠ some .panic := by
  unfold verifyRRStream
  split
  · simp
  · rename_i st _
    intro h
    rw [Option.some.injEq] at h
    unfold finishVerify at h
    split at h
    · simp at h
    split at h
    · simp at h
    · simp only [] at h
      cases hp : proofLoop p st.res (p.sortNeeds st.needs).reverse.length (p.sortNeeds st.needs).reverse with
      | ok u => rw [hp] at h; simp [Res.bind] at h
      | err e => rw [hp] at h; simp [Res.bind] at h
      | panic => exact proofLoop_release _ _ _ hp
  · simp
  · rename_i h; exact absurd h (zoneLoop_calm hl _ _ _)

/-! ### Back to the world -/

theorem Spec.CryptoOk.isSupported {alg : UInt8} {k m s : Bytes} (h : CryptoOk p alg k m s) : Supported alg := by
  cases h <;> simp_all [Supported]

theorem signedMessage_perm {sig : RRSig} {rs rs' : List RR} {msg : Bytes} (h : SignedMessage sig rs msg) (hp : rs.Perm rs') :
    SignedMessage sig rs' msg := by
  obtain ⟨kls, sorted, body, a, b, c⟩ := h
  exact ⟨kls, sorted, body, a, b.trans hp, c⟩

theorem signedMessage_labels {sig : RRSig} {rs : List RR} {msg : Bytes} (h : SignedMessage sig rs msg) {r : RR} (hr : r ∈ rs) (h47 : r.ty ≠ 47) :
    ∃ ls, HasLabels r.name ls ∧ sig.labels.toNat ≤ ls.length := by
  obtain ⟨_, sorted, body, _, hp, hso, hb, hm⟩ := h
  have hr := hp.mem_iff.mpr hr
  clear hp hso hm
  induction hb with
  | nil => simp at hr
  | cons x rs ls owner rest hl ho _ ih =>
    rcases List.mem_cons.mp hr with rfl | hr
    · refine ⟨ls, hl, ?_⟩
      cases ho with
      | exact h => exact (h.resolve_right h47) ▸ Nat.le_refl _
      | wildcard pre suf _ e _ h => rw [e, ← h, List.length_append]; omega
    · exact ih hr

section

variable (hw : w.Signed p) (hi : inp.Perm w.records)
include hw hi

theorem world_labels (s : RRSig) (hs : RR.rrsig s ∈ inp) (h47 : s.ty ≠ 47) : s.labels ≠ 255 := by
  obtain ⟨t, ht, hg⟩ := hw.isSig.mp (hi.mem_iff.mp hs)
  have hwf := hw.wellFormed t ht
  obtain ⟨r, hr⟩ := List.exists_mem_of_ne_nil _ hwf.nonempty
  have hmsg : ∃ msg, SignedMessage s t.records msg := by
    have : ∃ keys, SignedByOne p s keys t.records ∨ OtherAlgorithm s keys t.records := by
      by_cases h48 : t.ty = 48
      · exact ⟨_, ((hw.keySets t ht h48).1 s hg).2⟩
      · exact ⟨_, ((hw.otherSets t ht h48).1 s hg).2.2.2⟩
    obtain ⟨_, ⟨_, _, _, _, msg, h, _⟩ | ⟨_, ⟨msg, h⟩, _⟩⟩ := this
    · exact ⟨msg, h⟩
    · exact ⟨msg, h⟩
  obtain ⟨msg, hmsg⟩ := hmsg
  obtain ⟨ls, hl, hle⟩ := signedMessage_labels hmsg hr (by rw [(hwf.members r hr).2, ← (hwf.covers s hg).2]; exact h47)
  have := hl.length_le
  intro e
  rw [e] at hle
  change 255 ≤ _ at hle
  omega

/-- If all zones reached have their keys established, all zones of the world are reached. -/
theorem world_reached_of (hz : ∀ z, Reached (rfcCheck p) p inp z → ∃ ksig, ZoneKeysOk (rfcCheck p) p inp z ksig) {z : Name}
    (hm : z = rootName ∨ ∃ x ∈ w.zones, z = x.keys.owner) : Reached (rfcCheck p) p inp z := by
  induction hn : z.bytes.length using Nat.strongRecOn generalizing z with
  | ind n ih =>
    rcases hm with rfl | ⟨x, hx, rfl⟩
    · exact .root
    · have hs : x.ds ∈ w.sets := mem_worldSets.mpr (Or.inr (Or.inr ⟨x, hx, Or.inr rfl⟩))
      obtain ⟨_, h43, ho⟩ := hw.zoneSets x hx
      have hne : x.ds.ty ≠ 48 := by rw [h43]; decide
      obtain ⟨g, hg, hsg⟩ := world_signed hw hi hs hne
      have hsig := ((hw.otherSets _ hs hne).1 g hg).1
      have hr := ih _ (by rw [← hn]; exact world_shorter hw hx hg) hsig rfl
      have hc := (hw.wellFormed _ hs).covers g hg
      obtain ⟨ksig, hks⟩ := hz _ hr
      have := Reached.delegated _ ksig g hr hks hsg (by rw [hc.2, h43])
      rwa [hc.1, ho] at this

/-- Keys established from the records of the world are established by a signature by a key vouched for. -/
theorem world_first_of {s : SignedSet} (hs : s ∈ w.sets) (h48 : s.ty = 48) {ksig : RRSig} (h : ZoneKeysOk (rfcCheck p) p inp s.owner ksig) :
    w.AnchoredFirst p s (keySigs inp s.owner) := by
  obtain ⟨_, before, after, e, h1, h2⟩ := h
  have hmem := mem_anchoredKeys_perm (p := p) (.of_perm hi) s.owner
  have hrs := world_keyRecords hw hi hs h48
  refine ⟨before, ksig, after, e, fun x hx => ?_, ?_⟩
  · obtain ⟨_, ⟨k, hk, he⟩, ⟨msg, hm⟩, hn⟩ := h1 x hx
    exact ⟨⟨k, (hmem k).mp hk, he⟩, ⟨msg, signedMessage_perm hm hrs⟩, hn⟩
  · obtain ⟨_, k, msg, ⟨pre, post, e', he, _⟩, hm, hc⟩ := h2
    have hkm := (hmem k).mp (by rw [e']; simp)
    have hks : ksig ∈ s.sigs := (world_keySigs hw hi hs h48 ksig).mp (by rw [e]; simp)
    refine ⟨k, hkm, he, fun k' hk' he' => ?_, msg, signedMessage_perm hm hrs, hc⟩
    have hsub : ∀ y, y ∈ anchoredKeys p (anchors w.records s.owner) (keysAt w.records s.owner) → y ∈ keysAt w.records s.owner := by
      intro y hy
      unfold anchoredKeys at hy
      exact (List.mem_filter.mp hy).1
    rcases ((hw.keySets s hs h48).1 ksig hks).2 with ⟨k0, _, _, hu, _⟩ | ⟨_, _, hn⟩
    · rw [hu k' (hsub _ hk') he', hu k (hsub _ hkm) he]
    · exact absurd hc.isSupported hn

/-- If the records are accepted, the signatures over key sets are in such an order. -/
theorem world_accepted {fuel : Nat} {v : Verified} (h : verifyRRStream dbg p fuel inp = some (.ok v)) : w.AnchoredFirstIn p inp := by
  have hA := agrees_rfc p inp (world_proper hw hi)
  obtain ⟨hc, _⟩ := verifyRRStream_ok_needs h
  have hz : ∀ z, Reached (rfcCheck p) p inp z → ∃ ksig, ZoneKeysOk (rfcCheck p) p inp z ksig := fun z hz =>
    (hc z ((hA.reached z).mpr hz)).1.imp fun k hk => (hA.zoneKeysOk z k).mp hk
  intro s hs h48
  have hm : s.owner = rootName ∨ ∃ x ∈ w.zones, s.owner = x.keys.owner := by
    rcases mem_worldSets.mp hs with h | h | ⟨z, hz, h | h⟩
    · exact absurd h48 (hw.answerSets s h).1
    · subst h; exact Or.inl hw.rootSet.1
    · subst h; exact Or.inr ⟨z, hz, rfl⟩
    · subst h; rw [(hw.zoneSets z hz).2.1] at h48; simp at h48
  obtain ⟨k, hk⟩ := hz _ (world_reached_of hw hi hz hm)
  exact world_first_of hw hi hs h48 hk

/-- Otherwise they are rejected as invalid. -/
theorem world_rejected (hz : w.zones ≠ []) (hn : ¬ w.AnchoredFirstIn p inp) (dbg : Bool) :
    ∃ fuel, verifyRRStream dbg p fuel inp = some (.err .invalid) := by
  have hA := agrees_rfc p inp (world_proper hw hi)
  have ht := Props.C31_terminates_partial (dbg := dbg) (p := p) (inp := inp) (fun s hs => by
    obtain ⟨ls, hl⟩ := (hw.encodable _ (hi.mem_iff.mp hs)).owner
    exact hl.short) (hA.rootDelegates.mpr (world_rootDelegates hw hi hz)) (fun h => world_noSelf hw hi (hA.selfDelegation.mp h))
  refine ⟨(inp.length + 1) ^ 255, ?_⟩
  cases hv : verifyRRStream dbg p ((inp.length + 1) ^ 255) inp with
  | none => exact absurd hv ht
  | some r =>
    cases r with
    | ok v => exact absurd (world_accepted hw hi hv) hn
    | panic => exact absurd hv (verifyRRStream_calm (world_labels hw hi) _)
    | err e =>
      cases e with
      | invalid => rfl
      | unsupported =>
        exfalso
        obtain ⟨z, hr, ho⟩ := verifyRRStream_unsupported hv
        replace hr := (hA.reached z).mp hr
        replace ho := (hA.onlyUnsupported z).mp ho
        obtain ⟨s, hs, h48, rfl⟩ := hw.keySetOf (world_zones hw hi hr)
        rcases ho.2 with h | ⟨_, h⟩
        · obtain ⟨d, hd, hd'⟩ := world_digests hw hi hs h48
          have := h d hd
          rcases hd' with e | e | e
          · exact this.1 e
          · exact this.2.1 e
          · exact this.2.2 e
        · obtain ⟨_, g, hg, k, _, _, _, msg, _, hc⟩ := hw.keySets s hs h48
          exact (h g ((world_keySigs hw hi hs h48 g).mpr hg)).2.2.2 hc.isSupported

end

end Dnssec
