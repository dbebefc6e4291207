import Verif.Spec.World
import Verif.Props.Termination
import Verif.Props.Query

/-! # A correctly signed world is verified, whatever the order of its records -/

namespace Dnssec

open Spec

variable {p : Platform} {w : World} {inp : List RR}

/-! ### Uniqueness of RRsets -/

theorem distinct_eq {l : List SignedSet} (h : l.Pairwise (fun s t => ¬ (s.owner = t.owner ∧ s.ty = t.ty))) {s t : SignedSet}
    (hs : s ∈ l) (ht : t ∈ l) (h1 : s.owner = t.owner) (h2 : s.ty = t.ty) : s = t := by
  induction l with
  | nil => simp at hs
  | cons a l ih =>
    rw [List.pairwise_cons] at h
    rcases List.mem_cons.mp hs with rfl | hs' <;> rcases List.mem_cons.mp ht with rfl | ht'
    · rfl
    · exact absurd ⟨h1, h2⟩ (h.1 t ht')
    · exact absurd ⟨h1.symm, h2.symm⟩ (h.1 s hs')
    · exact ih h.2 hs' ht'

theorem filter_all_self {s : SignedSet} (h : s.WellFormed) :
    s.all.filter (fun r => r.name = s.owner ∧ r.ty = s.ty) = s.records := by
  unfold SignedSet.all
  rw [List.filter_append]
  have h1 : s.records.filter (fun r => r.name = s.owner ∧ r.ty = s.ty) = s.records :=
    List.filter_eq_self.mpr (fun r hr => by simpa using h.members r hr)
  have h2 : ((s.sigs.map RR.rrsig).filter (fun r => r.name = s.owner ∧ r.ty = s.ty)) = [] := by
    rw [List.filter_eq_nil_iff]
    intro r hr
    obtain ⟨g, _, rfl⟩ := List.mem_map.mp hr
    have : (RR.rrsig g).ty = 46 := rfl
    simp only [this, decide_eq_true_eq, not_and]
    exact fun _ e => h.notSig e.symm
  rw [h1, h2, List.append_nil]

theorem filter_all_other {s t : SignedSet} (h : t.WellFormed) (hs : s.ty ≠ 46) (hd : ¬ (t.owner = s.owner ∧ t.ty = s.ty)) :
    t.all.filter (fun r => r.name = s.owner ∧ r.ty = s.ty) = [] := by
  rw [List.filter_eq_nil_iff]
  intro r hr
  unfold SignedSet.all at hr
  rcases List.mem_append.mp hr with hr | hr
  · obtain ⟨a, b⟩ := h.members r hr
    simp only [a, b, decide_eq_true_eq]
    exact hd
  · obtain ⟨g, _, rfl⟩ := List.mem_map.mp hr
    have : (RR.rrsig g).ty = 46 := rfl
    simp only [this, decide_eq_true_eq, not_and]
    exact fun _ e => hs e.symm

theorem rrset_flatMap {l : List SignedSet} (hw : ∀ s ∈ l, s.WellFormed)
    (hd : l.Pairwise (fun s t => ¬ (s.owner = t.owner ∧ s.ty = t.ty))) {s : SignedSet} (hs : s ∈ l) :
    rrset (l.flatMap SignedSet.all) s.owner s.ty = s.records := by
  unfold rrset
  induction l with
  | nil => simp at hs
  | cons a l ih =>
    rw [List.pairwise_cons] at hd
    rw [List.flatMap_cons, List.filter_append]
    have hs0 : s.ty ≠ 46 := (hw s hs).notSig
    rcases List.mem_cons.mp hs with rfl | hs'
    · rw [filter_all_self (hw s hs), List.filter_eq_nil_iff.mpr, List.append_nil]
      intro r hr hc
      obtain ⟨t, ht, hr⟩ := List.mem_flatMap.mp hr
      have := filter_all_other (s := s) (hw t (List.mem_cons_of_mem _ ht)) hs0 (fun h => hd.1 t ht ⟨h.1.symm, h.2.symm⟩)
      exact (List.filter_eq_nil_iff.mp this) r hr hc
    · rw [filter_all_other (s := s) (hw a (by simp)) hs0 (hd.1 s hs'), List.nil_append]
      exact ih (fun t ht => hw t (List.mem_cons_of_mem _ ht)) hd.2 hs'

theorem mem_worldRecords {r : RR} : r ∈ w.records ↔ ∃ s ∈ w.sets, r ∈ s.records ∨ ∃ g ∈ s.sigs, r = .rrsig g := by
  unfold World.records
  rw [List.mem_flatMap]
  simp only [SignedSet.all, List.mem_append, List.mem_map, eq_comm]

theorem mem_worldSets {s : SignedSet} : s ∈ w.sets ↔ s ∈ w.answer ∨ s = w.root ∨ ∃ z ∈ w.zones, s = z.keys ∨ s = z.ds := by
  unfold World.sets
  simp [List.mem_flatMap]

namespace Spec.World.Signed

variable (hw : w.Signed p)
include hw

theorem isSig {s : RRSig} : RR.rrsig s ∈ w.records ↔ ∃ t ∈ w.sets, s ∈ t.sigs := by
  rw [mem_worldRecords]
  constructor
  · rintro ⟨t, ht, h | ⟨g, hg, h⟩⟩
    · have := (hw.wellFormed t ht).members _ h
      exact absurd this.2.symm (hw.wellFormed t ht).notSig
    · exact ⟨t, ht, by cases h; exact hg⟩
  · rintro ⟨t, ht, h⟩
    exact ⟨t, ht, Or.inr ⟨s, h, rfl⟩⟩

theorem inSet {r : RR} (hr : r ∈ w.records) {t : SignedSet} (ht : t ∈ w.sets) (h1 : r.name = t.owner) (h2 : r.ty = t.ty) :
    r ∈ t.records := by
  have : r ∈ rrset w.records t.owner t.ty := mem_rrset.mpr ⟨hr, h1, h2⟩
  rwa [World.records, rrset_flatMap hw.wellFormed hw.distinct ht] at this

theorem setPerm (hi : inp.Perm w.records) {s : SignedSet} (hs : s ∈ w.sets) : (rrset inp s.owner s.ty).Perm s.records := by
  have := rrset_perm hi s.owner s.ty
  rwa [World.records, rrset_flatMap hw.wellFormed hw.distinct hs] at this

/-- The names of the zones. -/
theorem keySetOf {z : Name} (hz : z = rootName ∨ ∃ x ∈ w.zones, z = x.keys.owner) : ∃ s ∈ w.sets, s.ty = 48 ∧ s.owner = z := by
  rcases hz with rfl | ⟨x, hx, rfl⟩
  · exact ⟨w.root, mem_worldSets.mpr (Or.inr (Or.inl rfl)), hw.rootSet.2, hw.rootSet.1⟩
  · exact ⟨x.keys, mem_worldSets.mpr (Or.inr (Or.inr ⟨x, hx, Or.inl rfl⟩)), (hw.zoneSets x hx).1, rfl⟩

theorem ofDs {s : SignedSet} (hs : s ∈ w.sets) (h : s.ty = 43) : ∃ z ∈ w.zones, s = z.ds := by
  rcases mem_worldSets.mp hs with h' | h' | ⟨z, hz, h' | h'⟩
  · exact absurd h (hw.answerSets s h').2
  · subst h'; rw [hw.rootSet.2] at h; simp at h
  · subst h'; rw [(hw.zoneSets z hz).1] at h; simp at h
  · exact ⟨z, hz, h'⟩

theorem ofAnswer {s : SignedSet} (hs : s ∈ w.sets) (h1 : s.ty ≠ 48) (h2 : s.ty ≠ 43) : s ∈ w.answer := by
  rcases mem_worldSets.mp hs with h' | h' | ⟨z, hz, h' | h'⟩
  · exact h'
  · subst h'; exact absurd hw.rootSet.2 h1
  · subst h'; exact absurd (hw.zoneSets z hz).1 h1
  · subst h'; exact absurd (hw.zoneSets z hz).2.1 h2

end Spec.World.Signed

/-! ### Good signatures -/

theorem Spec.SignedByOne.good {sig : RRSig} {keys keys' : List DnsKey} {rs rs' : List RR} (h : SignedByOne p sig keys rs)
    (hk : ∀ k, k ∈ keys' ↔ k ∈ keys) (hr : rs'.Perm rs) (ht : ∀ r ∈ rs, r.ty = sig.ty) : GoodSig p sig keys' rs' := by
  obtain ⟨k, hkm, he, hu, msg, ⟨kls, sorted, body, a, b, c⟩, hc⟩ := h
  refine ⟨fun r h => ht r (hr.mem_iff.mp h), k, msg, ?_, ⟨kls, sorted, body, a, b.trans hr.symm, c⟩, hc⟩
  have aux : ∀ l : List DnsKey, (∀ x ∈ l, x ∈ keys) → k ∈ l → FirstEligible sig l k := by
    intro l
    induction l with
    | nil => intro _ h; simp at h
    | cons x l ih =>
      intro hsub hm
      by_cases hx : Eligible sig x
      · have := hu x (hsub x (by simp)) hx
        subst this
        exact ⟨[], l, rfl, hx, by simp⟩
      · rcases List.mem_cons.mp hm with rfl | hm
        · exact absurd he hx
        · obtain ⟨pre, post, e, h1, h2⟩ := ih (fun y hy => hsub y (List.mem_cons_of_mem _ hy)) hm
          refine ⟨x :: pre, post, by rw [e]; rfl, h1, ?_⟩
          intro y hy
          rcases List.mem_cons.mp hy with rfl | hy
          · exact hx
          · exact h2 y hy
  exact aux keys' (fun x hx => (hk x).mp hx) ((hk k).mpr hkm)

theorem Spec.OtherAlgorithm.unsupported {sig : RRSig} {keys keys' : List DnsKey} {rs rs' : List RR} (h : OtherAlgorithm sig keys rs)
    (hk : ∀ k, k ∈ keys' ↔ k ∈ keys) (hr : rs'.Perm rs) (ht : ∀ r ∈ rs, r.ty = sig.ty) : (rfcCheck p).unsupported sig keys' rs' := by
  obtain ⟨⟨k, hkm, he⟩, ⟨msg, kls, sorted, body, a, b, c⟩, hs⟩ := h
  exact ⟨fun r h => ht r (hr.mem_iff.mp h), ⟨k, (hk k).mpr hkm, he⟩, ⟨msg, kls, sorted, body, a, b.trans hr.symm, c⟩, hs⟩

theorem keysAt_map (inp : List RR) (z : Name) : (keysAt inp z).map RR.dnskey = rrset inp z 48 := by
  unfold keysAt rrset
  induction inp with
  | nil => rfl
  | cons r l ih =>
    rw [List.filterMap_cons, List.filter_cons]
    cases r with
    | dnskey k =>
      by_cases hk : k.name = z
      · have h2 : (decide ((RR.dnskey k).name = z ∧ (RR.dnskey k).ty = 48)) = true := by
          rw [decide_eq_true_eq]; exact ⟨hk, rfl⟩
        rw [if_pos h2]
        simp only [hk, if_true, List.map_cons]
        rw [ih]
      · have h2 : ¬ (decide ((RR.dnskey k).name = z ∧ (RR.dnskey k).ty = 48)) = true := by
          rw [decide_eq_true_eq]; exact fun h => hk h.1
        rw [if_neg h2]
        simp only [hk, if_false]
        exact ih
    | _ =>
      simp only
      rw [if_neg (by rw [decide_eq_true_eq]; rintro ⟨_, h⟩; revert h; simp only [RR.ty]; decide)]
      exact ih

section Verify

variable (hw : w.Signed p) (hk : w.AnchoredFirstIn p inp) (hi : inp.Perm w.records)
include hw hi

theorem world_keySigs {s : SignedSet} (hs : s ∈ w.sets) (h48 : s.ty = 48) (x : RRSig) : x ∈ keySigs inp s.owner ↔ x ∈ s.sigs := by
  rw [mem_keySigs]
  constructor
  · rintro ⟨h1, h2, h3⟩
    obtain ⟨t, ht, hx⟩ := hw.isSig.mp (hi.mem_iff.mp h1)
    have c := (hw.wellFormed t ht).covers x hx
    rwa [← distinct_eq hw.distinct ht hs (c.1.symm.trans h2) (by rw [h48, ← h3, c.2])]
  · intro hx
    have c := (hw.wellFormed s hs).covers x hx
    exact ⟨hi.mem_iff.mpr (hw.isSig.mpr ⟨s, hs, hx⟩), c.1, by rw [c.2, h48]⟩

theorem world_keyRecords {s : SignedSet} (hs : s ∈ w.sets) (h48 : s.ty = 48) : ((keysAt inp s.owner).map RR.dnskey).Perm s.records := by
  rw [keysAt_map, ← h48]
  exact hw.setPerm hi hs

omit hi in
theorem world_sigTypes {s : SignedSet} (hs : s ∈ w.sets) : ∀ x ∈ s.sigs, ∀ r ∈ s.records, r.ty = x.ty := fun x hx r hr => by
  rw [((hw.wellFormed s hs).members r hr).2, ((hw.wellFormed s hs).covers x hx).2]

omit hi in
/-- Key sets signed only with keys vouched for. -/
theorem anchoredFirst_of (h : w.KeySetsByAnchored p) {s : SignedSet} (hs : s ∈ w.sets) (h48 : s.ty = 48) {sigs : List RRSig}
    (hall : ∀ x, x ∈ sigs ↔ x ∈ s.sigs) : w.AnchoredFirst p s sigs := by
  obtain ⟨_, g, hgm, hg⟩ := hw.keySets s hs h48
  have haux : ∀ l : List RRSig, (∀ x ∈ l, x ∈ s.sigs) → g ∈ l → w.AnchoredFirst p s l := by
    intro l
    induction l with
    | nil => intro _ h; simp at h
    | cons x l ih =>
      intro hsub hm
      have hx := hsub x (by simp)
      rcases h s hs h48 x hx with h | h
      · exact ⟨[], x, l, rfl, by simp, h⟩
      · rcases List.mem_cons.mp hm with rfl | hm
        · exact ⟨[], g, l, rfl, by simp, hg⟩
        · obtain ⟨before, ksig, after, e, h1, h2⟩ := ih (fun y hy => hsub y (List.mem_cons_of_mem _ hy)) hm
          refine ⟨x :: before, ksig, after, by rw [e]; rfl, ?_, h2⟩
          intro y hy
          rcases List.mem_cons.mp hy with rfl | hy
          · exact h
          · exact h1 y hy
  exact haux _ (fun x hx => (hall x).mp hx) ((hall g).mpr hgm)

theorem world_anchoredFirst (h : w.KeySetsByAnchored p) : w.AnchoredFirstIn p inp :=
  fun _ hs h48 => anchoredFirst_of hw h hs h48 (world_keySigs hw hi hs h48)

/-- There is a known digest type among the trust anchors of each zone. -/
theorem world_digests {s : SignedSet} (hs : s ∈ w.sets) (h48 : s.ty = 48) :
    ∃ d ∈ anchors inp s.owner, d.digestType = 1 ∨ d.digestType = 2 ∨ d.digestType = 4 := by
  obtain ⟨_, g, _, k, hk, _⟩ := hw.keySets s hs h48
  unfold anchoredKeys at hk
  obtain ⟨d, hd, ⟨_, _, h⟩, _⟩ := of_decide_eq_true (List.mem_filter.mp hk).2
  refine ⟨d, (mem_anchors_perm (.of_perm hi) _ _).mpr hd, ?_⟩
  rcases h with h | h
  · exact Or.inl h.1
  · exact Or.inr (Or.inl h.1)

include hk in
theorem world_keys {s : SignedSet} (hs : s ∈ w.sets) (h48 : s.ty = 48) : ∃ ksig, ZoneKeysOk (rfcCheck p) p inp s.owner ksig := by
  have hall := world_keySigs hw hi hs h48
  have hrs := world_keyRecords hw hi hs h48
  have hty := world_sigTypes hw hs
  obtain ⟨before, g, after, e, h1, h2⟩ := hk s hs h48
  have hsub : ∀ x ∈ before ++ g :: after, x ∈ s.sigs := fun x hx => (hall x).mp (e ▸ hx)
  exact ⟨g, world_digests hw hi hs h48, before, after, e,
    fun x hx => (h1 x hx).unsupported (mem_anchoredKeys_perm (.of_perm hi) s.owner) hrs (hty x (hsub x (by simp [hx]))),
    h2.good (mem_anchoredKeys_perm (.of_perm hi) s.owner) hrs (hty g (hsub g (by simp)))⟩

theorem world_sigsBy {s : SignedSet} (hs : s ∈ w.sets) (h48 : s.ty ≠ 48) {g : RRSig} (hg : g ∈ s.sigs) : g ∈ sigsBy inp g.keyName :=
  mem_sigsBy.mpr ⟨hi.mem_iff.mpr (hw.isSig.mpr ⟨s, hs, hg⟩), rfl, by rw [((hw.wellFormed s hs).covers g hg).2]; exact h48⟩

theorem world_good {s : SignedSet} (hs : s ∈ w.sets) (h48 : s.ty ≠ 48) {g : RRSig} (hg : g ∈ s.sigs)
    (h : SignedByOne p g (keysAt w.records g.keyName) s.records) : SignedBy (rfcCheck p) inp g.keyName g := by
  have hwf := hw.wellFormed s hs
  refine ⟨world_sigsBy hw hi hs h48 hg, ?_⟩
  apply h.good (mem_keysAt_perm (.of_perm hi) _)
  · rw [(hwf.covers g hg).1, (hwf.covers g hg).2]
    exact hw.setPerm hi hs
  · intro r hr
    rw [(hwf.members r hr).2, (hwf.covers g hg).2]

theorem world_signed {s : SignedSet} (hs : s ∈ w.sets) (h48 : s.ty ≠ 48) : ∃ g ∈ s.sigs, SignedBy (rfcCheck p) inp g.keyName g := by
  obtain ⟨g, hg, h⟩ := (hw.otherSets s hs h48).2
  exact ⟨g, hg, world_good hw hi hs h48 hg h⟩

omit hi in
theorem world_shorter {x : Zone} (hx : x ∈ w.zones) {g : RRSig} (hg : g ∈ x.ds.sigs) :
    g.keyName.bytes.length < x.keys.owner.bytes.length := by
  have hs : x.ds ∈ w.sets := mem_worldSets.mpr (Or.inr (Or.inr ⟨x, hx, Or.inr rfl⟩))
  obtain ⟨_, h43, ho⟩ := hw.zoneSets x hx
  obtain ⟨_, ⟨pre, hpre⟩, hstrict, _⟩ := (hw.otherSets _ hs (by rw [h43]; decide)).1 g hg
  rw [← ho, hpre, List.length_append]
  cases pre with
  | nil =>
    refine absurd ?_ (hstrict h43)
    cases ha : x.ds.owner
    cases hb : g.keyName
    rw [ha, hb] at hpre
    simpa using hpre
  | cons c l => simp only [List.length_cons]; omega

include hk in
theorem world_reached {z : Name} (hz : z = rootName ∨ ∃ x ∈ w.zones, z = x.keys.owner) : Reached (rfcCheck p) p inp z := by
  induction hn : z.bytes.length using Nat.strongRecOn generalizing z with
  | ind n ih =>
    rcases hz with rfl | ⟨x, hx, rfl⟩
    · exact .root
    · have hs : x.ds ∈ w.sets := mem_worldSets.mpr (Or.inr (Or.inr ⟨x, hx, Or.inr rfl⟩))
      obtain ⟨_, h43, ho⟩ := hw.zoneSets x hx
      have hne : x.ds.ty ≠ 48 := by rw [h43]; decide
      obtain ⟨g, hg, hsg⟩ := world_signed hw hi hs hne
      have hsig := ((hw.otherSets _ hs hne).1 g hg).1
      have hr := ih _ (by rw [← hn]; exact world_shorter hw hx hg) hsig rfl
      obtain ⟨k, hkm, hk48, hko⟩ := hw.keySetOf hsig
      have hc := (hw.wellFormed _ hs).covers g hg
      obtain ⟨ksig, hks⟩ := world_keys hw hk hi hkm hk48
      have := Reached.delegated _ ksig g hr (by rw [← hko]; exact hks) hsg (by rw [hc.2, h43])
      rwa [hc.1, ho] at this

theorem world_zones {z : Name} (h : Reached (rfcCheck p) p inp z) : z = rootName ∨ ∃ x ∈ w.zones, z = x.keys.owner := by
  cases h with
  | root => exact Or.inl rfl
  | delegated z ksig sig _ _ hs h43 =>
    obtain ⟨h1, h2, h3⟩ := mem_sigsBy.mp hs.1
    obtain ⟨t, ht, hg⟩ := hw.isSig.mp (hi.mem_iff.mp h1)
    have c := (hw.wellFormed t ht).covers _ hg
    obtain ⟨x, hx, rfl⟩ := hw.ofDs ht (by rw [← c.2, h43])
    exact Or.inr ⟨x, hx, by rw [c.1, (hw.zoneSets x hx).2.2]⟩

include hk in
theorem world_authenticated (r : RR) : Authenticated (rfcCheck p) p inp r ↔ ∃ s ∈ w.sets, s.ty ≠ 48 ∧ r ∈ s.records := by
  constructor
  · rintro ⟨z, ksig, sig, _, _, hs, hr, h1, h2⟩
    obtain ⟨a, _, c⟩ := mem_sigsBy.mp hs.1
    obtain ⟨t, ht, hg⟩ := hw.isSig.mp (hi.mem_iff.mp a)
    have hc := (hw.wellFormed t ht).covers _ hg
    exact ⟨t, ht, by rw [← hc.2]; exact c, hw.inSet (hi.mem_iff.mp hr) ht (by rw [h1, hc.1]) (by rw [h2, hc.2])⟩
  · rintro ⟨s, hs, h48, hr⟩
    obtain ⟨g, hg, hsg⟩ := world_signed hw hi hs h48
    have hsig := ((hw.otherSets s hs h48).1 g hg).1
    obtain ⟨k, hkm, hk48, hko⟩ := hw.keySetOf hsig
    have hwf := hw.wellFormed s hs
    obtain ⟨ksig, hks⟩ := world_keys hw hk hi hkm hk48
    refine ⟨g.keyName, ksig, g, world_reached hw hk hi hsig, by rw [← hko]; exact hks, hsg,
      hi.mem_iff.mpr (mem_worldRecords.mpr ⟨s, hs, Or.inl hr⟩), ?_, ?_⟩
    · rw [(hwf.members r hr).1, (hwf.covers g hg).1]
    · rw [(hwf.members r hr).2, (hwf.covers g hg).2]

theorem world_used {s : RRSig} (h : Used (rfcCheck p) p inp s) : ∃ t ∈ w.sets, s ∈ t.sigs := by
  obtain ⟨z, _, h | h⟩ := h
  · obtain ⟨_, before, after, e, _⟩ := h
    have : s ∈ keySigs inp z := by rw [e]; simp
    exact hw.isSig.mp (hi.mem_iff.mp (mem_keySigs.mp this).1)
  · exact hw.isSig.mp (hi.mem_iff.mp (mem_sigsBy.mp h.1).1)

omit hi in
theorem world_expanded {t : SignedSet} (ht : t ∈ w.sets) (ha : t ∈ w.answer) {g : RRSig} (hg : g ∈ t.sigs) (hx : Expanded g) :
    t.ty ≠ 50 ∧ g.labels.toNat < t.owner.labels.toNat ∧
    ∀ name, t.owner.trailingNLabels (g.labels + 1) = some name → w.Denies p g.keyName name t.ty := by
  have hwf := hw.wellFormed t ht
  obtain ⟨r, hr⟩ := List.exists_mem_of_ne_nil _ hwf.nonempty
  obtain ⟨ls, hls⟩ := (hw.encodable r (mem_worldRecords.mpr ⟨t, ht, Or.inl hr⟩)).owner
  rw [(hwf.members r hr).1] at hls
  have hlab := hls.labels_eq
  have hle := hls.length_le
  obtain ⟨h50, pre, next, suf, e, hsuf, hd⟩ := hw.wildcards t ha (by rw [← (hwf.covers g hg).2]; exact hx.2) g hg ls hls (by
    intro h
    exact hx.1 (UInt8.toNat_inj.mp (by rw [(hwf.covers g hg).1, hlab, h])))
  have hlen : ls.length = pre.length + (suf.length + 1) := by rw [e]; simp
  refine ⟨h50, by rw [hlab]; omega, ?_⟩
  intro name hn
  have hk : (g.labels + 1).toNat = suf.length + 1 := by
    rw [UInt8.toNat_add, ← hsuf]; simp; omega
  rw [hls.trailing, hk, if_pos (by omega), show ls.length - (suf.length + 1) = pre.length by omega, e,
    List.drop_left] at hn
  rw [← Option.some.inj hn]
  exact hd

include hk in
theorem world_inOrder : InOrder (rfcCheck p) p inp := by
  intro z hz
  obtain ⟨k, hkm, hk48, hko⟩ := hw.keySetOf (world_zones hw hi hz)
  refine ⟨by rw [← hko]; exact world_keys hw hk hi hkm hk48, ?_⟩
  intro s hs
  obtain ⟨a, b, c⟩ := mem_sigsBy.mp hs
  obtain ⟨t, ht, hg⟩ := hw.isSig.mp (hi.mem_iff.mp a)
  have hwf := hw.wellFormed t ht
  have hc := hwf.covers s hg
  have h48 : t.ty ≠ 48 := by rw [← hc.2]; exact c
  obtain ⟨_, ho, _, hgood⟩ := (hw.otherSets t ht h48).1 s hg
  refine ⟨by rw [hc.1, ← b]; exact ho, ?_⟩
  rcases hgood with h | h
  · refine Or.inr ⟨by rw [← b]; exact world_good hw hi ht h48 hg h, ?_, ?_⟩
    · rw [hc.2]; exact hwf.notSig
    · intro h43 hx
      rw [hc.2] at h43 ⊢
      have := world_expanded hw ht (hw.ofAnswer ht h48 h43) hg hx
      rw [hc.1]
      exact ⟨this.1, this.2.1⟩
  · refine Or.inl ?_
    rw [← b, hc.1, hc.2]
    exact h.unsupported (mem_keysAt_perm (.of_perm hi) _) (hw.setPerm hi ht) fun r hr => by rw [(hwf.members r hr).2, hc.2]

theorem world_proper : ProperInput inp := by
  refine ⟨fun r hr => (hw.encodable r (hi.mem_iff.mp hr)).owner, fun s hs => ?_, fun t ht => ?_, ?_⟩
  · exact (hw.encodable _ (hi.mem_iff.mp hs)).inner s.keyName (by simp [rdataNames])
  · exact (hw.encodable _ (hi.mem_iff.mp ht)).txtNonempty t rfl
  · intro s hs r hr r' hr' h1 h2 h3 h4 hne
    obtain ⟨t, ht, hg⟩ := hw.isSig.mp (hi.mem_iff.mp hs)
    have hc := (hw.wellFormed t ht).covers _ hg
    exact hw.order t ht r (hw.inSet (hi.mem_iff.mp hr) ht (by rw [h1, hc.1]) (by rw [h2, hc.2])) r'
      (hw.inSet (hi.mem_iff.mp hr') ht (by rw [h3, hc.1]) (by rw [h4, hc.2])) hne

theorem world_rootDelegates (hz : w.zones ≠ []) : RootDelegates (rfcCheck p) inp := by
  -- the zone with the shortest name
  have : ∀ n, ∀ x ∈ w.zones, x.keys.owner.bytes.length = n → RootDelegates (rfcCheck p) inp := by
    intro n
    induction n using Nat.strongRecOn with
    | ind n ih =>
      intro x hx hn
      have hs : x.ds ∈ w.sets := mem_worldSets.mpr (Or.inr (Or.inr ⟨x, hx, Or.inr rfl⟩))
      obtain ⟨_, h43, ho⟩ := hw.zoneSets x hx
      have hne : x.ds.ty ≠ 48 := by rw [h43]; decide
      obtain ⟨g, hg, hsg⟩ := world_signed hw hi hs hne
      rcases ((hw.otherSets _ hs hne).1 g hg).1 with h | ⟨y, hy, h⟩
      · exact ⟨g, by rw [← h]; exact hsg, by rw [((hw.wellFormed _ hs).covers g hg).2, h43]⟩
      · refine ih _ ?_ y hy rfl
        rw [← h, ← hn]
        exact world_shorter hw hx hg
  cases hl : w.zones with
  | nil => exact absurd hl hz
  | cons x l => exact this _ x (by rw [hl]; simp) rfl

theorem world_noSelf : ¬ SelfDelegation (rfcCheck p) p inp := by
  rintro ⟨z, _, s, hs, h43, he⟩
  obtain ⟨a, b, c⟩ := mem_sigsBy.mp hs.1
  obtain ⟨t, ht, hg⟩ := hw.isSig.mp (hi.mem_iff.mp a)
  have hc := (hw.wellFormed t ht).covers _ hg
  refine ((hw.otherSets t ht (by rw [← hc.2]; exact c)).1 s hg).2.2.1 (by rw [← hc.2, h43]) ?_
  rw [← hc.1, he, b]

omit hi in
theorem world_hasAnswer : ∃ s, s ∈ w.answer := by
  have : ∀ z, w.Needs z → ∃ s, s ∈ w.answer := by
    intro z h
    induction h with
    | answer s _ hs _ => exact ⟨s, hs⟩
    | parent _ _ _ _ _ ih => exact ih
  exact this _ hw.needed.1

include hk in
theorem world_wildcards : WildcardsDenied (rfcCheck p) p inp := by
  intro z s _ hs h43 hx name hn
  obtain ⟨a, b, c⟩ := mem_sigsBy.mp hs.1
  obtain ⟨t, ht, hg⟩ := hw.isSig.mp (hi.mem_iff.mp a)
  have hc := (hw.wellFormed t ht).covers _ hg
  rw [hc.2] at c h43 ⊢
  rw [hc.1] at hn
  have hd := (world_expanded hw ht (hw.ofAnswer ht c h43) hg hx).2.2 name hn
  rw [b] at hd
  have hans : ∀ x ∈ w.answer, x ∈ w.sets := fun x hx => mem_worldSets.mpr (Or.inl hx)
  rcases hd with ⟨x, hx, n, h1, h2, h3⟩ | ⟨x, hx, n, h1, h2, h3, h4⟩
  · exact Or.inl ⟨n, (world_authenticated hw hk hi _).mpr ⟨x, hans x hx, (hw.answerSets x hx).1, h1⟩, h2, h3⟩
  · refine Or.inr ⟨n, (world_authenticated hw hk hi _).mpr ⟨x, hans x hx, (hw.answerSets x hx).1, h1⟩, h2, h3, ?_⟩
    obtain ⟨a, b, h4⟩ := h4
    refine ⟨a, b, fun n' hn' => ?_⟩
    obtain ⟨y, hy, hy48, hm⟩ := (world_authenticated hw hk hi _).mp hn'.1
    have hty : y.ty = 50 := ((hw.wellFormed y hy).members _ hm).2.symm
    exact h4 n' ⟨y, hw.ofAnswer hy hy48 (by rw [hty]; decide), hm, hn'.2⟩

include hk in
/-- Any order of the records of the world is verified, and yields exactly the answer. -/
theorem world_verified (hz : w.zones ≠ []) (dbg : Bool) : ∃ fuel v, verifyRRStream dbg p fuel inp = some (.ok v) ∧
    ∀ r, r ∈ v.verifiedRrs ↔ ∃ s ∈ w.answer, s.ty ≠ 47 ∧ s.ty ≠ 50 ∧ r ∈ s.records := by
  obtain ⟨a, ha⟩ := world_hasAnswer hw
  have has : a ∈ w.sets := mem_worldSets.mpr (Or.inl ha)
  obtain ⟨r, hr⟩ := List.exists_mem_of_ne_nil _ (hw.wellFormed a has).nonempty
  obtain ⟨fuel, v, hv⟩ := Props.C56_complete_rfc (dbg := dbg) (world_proper hw hi) (world_inOrder hw hk hi) (world_rootDelegates hw hi hz)
    (world_noSelf hw hi) ⟨r, (world_authenticated hw hk hi r).mpr ⟨a, has, (hw.answerSets a ha).1, hr⟩, by
      rw [((hw.wellFormed a has).members r hr).2]; exact (hw.answerSets a ha).2⟩
    (by
      intro s t hs ht
      obtain ⟨a, ha, has⟩ := world_used hw hi hs
      obtain ⟨b, hb, hbt⟩ := world_used hw hi ht
      exact hw.window a ha b hb s has t hbt)
    (world_wildcards hw hk hi)
  refine ⟨fuel, v, hv, fun r => ?_⟩
  rw [Props.C27_exact_rfc (world_proper hw hi) hv, world_authenticated hw hk hi]
  constructor
  · rintro ⟨⟨s, hs, h1, hr⟩, h2, h3, h4⟩
    rw [((hw.wellFormed s hs).members r hr).2] at h2 h3 h4
    exact ⟨s, hw.ofAnswer hs h1 h2, h3, h4, hr⟩
  · rintro ⟨s, hs, h1, h2, hr⟩
    have hs' : s ∈ w.sets := mem_worldSets.mpr (Or.inl hs)
    rw [((hw.wellFormed s hs').members r hr).2]
    exact ⟨⟨s, hs', (hw.answerSets s hs).1, hr⟩, (hw.answerSets s hs).2, h1, h2⟩

include hk in
/-- Without zones below the root verification does not return. -/
theorem world_diverges (hz : w.zones = []) (dbg : Bool) (fuel : Nat) : verifyRRStream dbg p fuel inp = none := by
  have hA := agrees_rfc p inp (world_proper hw hi)
  refine Props.C31_diverges (hA.inOrder.mpr (world_inOrder hw hk hi)) (Or.inl ?_) fuel
  intro h
  obtain ⟨s, hs, h43⟩ := hA.rootDelegates.mp h
  obtain ⟨t, ht, hg⟩ := hw.isSig.mp (hi.mem_iff.mp (mem_sigsBy.mp hs.1).1)
  obtain ⟨z, hz', _⟩ := hw.ofDs ht (by rw [← ((hw.wellFormed t ht).covers s hg).2, h43])
  rw [hz] at hz'
  simp at hz'

end Verify

end Dnssec
