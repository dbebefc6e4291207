import Verif.Proofs.Closed
import Verif.Spec.Unsupported
import Verif.Proofs.Complete

/-! # Lemmas for C93 -/

namespace Dnssec

open Spec

variable {dbg : Bool} {p : Platform} {inp : List RR}

theorem verifyDnskeys_unsupported_iff (sigs : List RRSig) (dses : List DS) (keys : List DnsKey) :
    verifyDnskeys p sigs dses keys = .err .unsupported ↔
      dses ≠ [] ∧ ((∀ d ∈ dses, d.digestType ≠ 1 ∧ d.digestType ≠ 2 ∧ d.digestType ≠ 4) ∨
        (sigs ≠ [] ∧ ∀ s ∈ sigs, (codeCheck p).unsupported s (anchoredKeys p dses keys) (keys.map .dnskey))) := by
  unfold verifyDnskeys codeCheck
  by_cases he : dses.isEmpty = true
  · rw [if_pos he, List.isEmpty_iff.mp he]; simp
  · have hne : dses ≠ [] := by simpa using he
    rw [if_neg he]
    by_cases hk : dses.any (fun ds => ds.digestType == 1 || ds.digestType == 2 || ds.digestType == 4) = true
    · rw [if_neg (by simp [hk]), (dnskeySigLoop_cases p _ keys sigs false).2.2, validatedKeys_eq]
      obtain ⟨d, hd, ht⟩ := (knownDigest_iff dses).mp hk
      simp only [Bool.false_eq_true, false_or]
      constructor
      · intro h; exact ⟨hne, Or.inr h⟩
      · rintro ⟨_, h | h⟩
        · obtain ⟨a, b, c⟩ := h d hd
          rcases ht with ht | ht | ht
          · exact absurd ht a
          · exact absurd ht b
          · exact absurd ht c
        · exact h
    · rw [if_pos (by simpa using hk)]
      simp only [true_iff]
      refine ⟨hne, Or.inl fun d hd => ?_⟩
      rw [knownDigest_iff] at hk
      refine ⟨fun h => hk ⟨d, hd, Or.inl h⟩, fun h => hk ⟨d, hd, Or.inr (Or.inl h)⟩, fun h => hk ⟨d, hd, Or.inr (Or.inr h)⟩⟩

theorem zone_unsupported_iff (z : Name) :
    verifyDnskeys p (keySigs inp z) (anchors inp z) (keysAt inp z) = .err .unsupported ↔ OnlyUnsupported (codeCheck p) p inp z :=
  verifyDnskeys_unsupported_iff _ _ _

theorem acceptSig_err {sig : RRSig} {st : VState} {e : VErr} (h : acceptSig dbg inp sig st = .err e) : e = .invalid := by
  unfold acceptSig at h
  split at h
  · simpa using h.symm
  · split at h
    · split at h <;> simp at h
    · simp only at h
      split at h
      · split at h
        · simpa using h.symm
        · cases hl : labelsPlusOne dbg sig.labels with
          | ok l =>
            rw [hl] at h
            simp only [Res.bind] at h
            split at h
            · simpa using h.symm
            · simp at h
          | err e' =>
            unfold labelsPlusOne at hl
            split at hl <;> simp at hl
          | panic => rw [hl] at h; simp [Res.bind] at h
      · simp at h

theorem sigLoop_err {zone : Bytes} : ∀ {sigs : List RRSig} {st : VState} {e : VErr},
    sigLoop dbg p inp zone sigs st = .err e → e = .invalid
  | [], st, e, h => by simp [sigLoop] at h
  | s :: sigs, st, e, h => by
    rw [sigLoop] at h
    split at h
    · simpa using h.symm
    · split at h
      · exact sigLoop_err h
      · simpa using h.symm
      · simp at h
      · cases ha : acceptSig dbg inp s (st.note s) with
        | ok st' => rw [ha] at h; exact sigLoop_err h
        | err e' =>
          rw [ha] at h
          simp only [Res.bind, Res.err.injEq] at h
          rw [← h]; exact acceptSig_err ha
        | panic => rw [ha] at h; simp [Res.bind] at h

theorem proofLoop_err {res : List RR} : ∀ {fuel : Nat} {needs : List Need} {e : VErr},
    proofLoop p res fuel needs = .err e → e = .invalid
  | 0, _, _, h => by simp [proofLoop] at h
  | _ + 1, [], _, h => by simp [proofLoop] at h
  | fuel + 1, need :: rest, e, h => by
    rw [proofLoop] at h
    split at h
    · exact proofLoop_err h
    · simp only at h
      split at h
      · exact proofLoop_err h
      · simpa using h.symm

theorem finishVerify_err {st : VState} {e : VErr} (h : finishVerify p st = .err e) : e = .invalid := by
  unfold finishVerify at h
  split at h
  · simpa using h.symm
  · split at h
    · simpa using h.symm
    · simp only at h
      cases hp : proofLoop p st.res (p.sortNeeds st.needs).reverse.length (p.sortNeeds st.needs).reverse with
      | ok u => rw [hp] at h; simp [Res.bind] at h
      | err e' =>
        rw [hp] at h
        simp only [Res.bind, Res.err.injEq] at h
        rw [← h]; exact proofLoop_err hp
      | panic => rw [hp] at h; simp [Res.bind] at h

/-- A zone that fails with `UnsupportedAlgorithm`. -/
theorem doZone_unsupported {z : Name} {dses : List DS} {st : VState} (h : z ≠ rootName → dses = dsAt inp z)
    (hd : doZone dbg p inp z.bytes dses st = .err .unsupported) : OnlyUnsupported (codeCheck p) p inp z := by
  rw [doZone_eq _ _ _ _ _ _ h] at hd
  rw [← zone_unsupported_iff]
  cases hk : verifyDnskeys p (keySigs inp z) (anchors inp z) (keysAt inp z) with
  | ok s =>
    rw [hk] at hd
    exact absurd (sigLoop_err hd) (by simp)
  | err e => rw [hk] at hd; simpa [Res.bind] using hd
  | panic => rw [hk] at hd; simp [Res.bind] at hd

theorem zoneLoop_unsupported : ∀ {fuel : Nat} {zone : Bytes} {st : VState} {P : List Name},
    zoneLoop dbg p inp fuel zone st = some (.err .unsupported) → Inv dbg p inp P st →
    ∃ z, Reached (codeCheck p) p inp z ∧ OnlyUnsupported (codeCheck p) p inp z
  | 0, zone, st, P, h, hI => by
    rw [zoneLoop] at h
    by_cases hc : zone = [dot] ∨ st.pending ≠ []
    · rw [if_pos hc] at h; simp at h
    · rw [if_neg hc] at h; simp at h
  | fuel + 1, zone, st, P, h, hI => by
    rw [zoneLoop] at h
    by_cases hc : zone = [dot] ∨ st.pending ≠ []
    · rw [if_pos hc] at h
      cases hp : st.pending with
      | nil =>
        rw [hp] at h
        simp only at h
        have hzone : zone = [dot] := by
          rcases hc with hc | hc
          · exact hc
          · exact absurd hp hc
        subst hzone
        cases hd : doZone dbg p inp [dot] [] st with
        | err e =>
          rw [hd] at h
          simp only [Option.some.injEq, Res.err.injEq] at h
          subst h
          exact ⟨rootName, .root, doZone_unsupported (z := rootName) (fun h => absurd rfl h) hd⟩
        | panic => rw [hd] at h; simp at h
        | ok st1 =>
          rw [hd] at h
          simp only at h
          have hI' : Inv dbg p inp (rootName :: P) st1 :=
            doZone_step (z := rootName) (dses := []) hI.eff hI.reached hI.keys hI.sigs
              (fun z' h' s hs ht => (hI.deleg z' h' s hs ht).elim (fun a => Or.inl (List.mem_cons_of_mem _ a)) Or.inr)
              hI.pend (fun z' h' s hs ht hn => Or.inr (hI.self z' h' s hs ht hn)) .root (fun h => absurd rfl h) hd
          exact zoneLoop_unsupported h hI'
      | cons e rest =>
        obtain ⟨z, ds⟩ := e
        rw [hp] at h
        simp only at h
        obtain ⟨g1, g2⟩ := hI.pend (z, ds) (by rw [hp]; simp)
        cases hd : doZone dbg p inp z.bytes ds { st with pending := rest } with
        | err e =>
          rw [hd] at h
          simp only [Option.some.injEq, Res.err.injEq] at h
          subst h
          exact ⟨z, g1, doZone_unsupported (fun _ => g2) hd⟩
        | panic => rw [hd] at h; simp at h
        | ok st1 =>
          rw [hd] at h
          simp only at h
          have heff := hI.eff
          have hI' : Inv dbg p inp (z :: P) st1 :=
            doZone_step (st := { st with pending := rest }) ⟨heff.1, heff.2, heff.3, heff.4, heff.5, heff.6, heff.7, heff.8, heff.9⟩
              hI.reached hI.keys hI.sigs
              (by
                intro z' h' s hs ht
                rcases hI.deleg z' h' s hs ht with a | ⟨e, a, b⟩
                · exact Or.inl (by simp [a])
                · rw [hp] at a
                  rcases List.mem_cons.mp a with rfl | a
                  · exact Or.inl (by simp [← b])
                  · exact Or.inr ⟨e, a, b⟩)
              (fun e he => hI.pend e (by rw [hp]; exact List.mem_cons_of_mem _ he))
              (by
                intro z' h' s hs ht hn
                obtain ⟨e, a, b⟩ := hI.self z' h' s hs ht hn
                rw [hp] at a
                rcases List.mem_cons.mp a with rfl | a
                · exact Or.inl b.symm
                · exact Or.inr ⟨e, a, b⟩)
              g1 (fun _ => g2) hd
          exact zoneLoop_unsupported h hI'
    · rw [if_neg hc] at h; simp at h

theorem verifyRRStream_unsupported {fuel : Nat} (h : verifyRRStream dbg p fuel inp = some (.err .unsupported)) :
    ∃ z, Reached (codeCheck p) p inp z ∧ OnlyUnsupported (codeCheck p) p inp z := by
  unfold verifyRRStream at h
  cases hz : zoneLoop dbg p inp fuel [dot] VState.init with
  | none => rw [hz] at h; simp at h
  | some r =>
    cases r with
    | err e =>
      rw [hz] at h
      simp only [Option.some.injEq, Res.err.injEq] at h
      subst h
      exact zoneLoop_unsupported hz (Inv.init dbg p inp)
    | panic => rw [hz] at h; simp at h
    | ok st =>
      rw [hz] at h
      simp only [Option.some.injEq] at h
      exact absurd (finishVerify_err h) (by simp)

theorem doZone_inOrder {z : Name} {dses : List DS} (hds : z ≠ rootName → dses = dsAt inp z)
    (hc : ZoneInOrder (codeCheck p) p inp z) (st : VState) : ∃ st', doZone dbg p inp z.bytes dses st = .ok st' := by
  rw [doZone_eq _ _ _ _ _ _ hds]
  obtain ⟨⟨ksig, hk⟩, hs⟩ := hc
  rw [(verifyDnskeys_ok_iff _ _ _ _ _).mpr hk]
  apply sigLoop_clean
  intro s h
  obtain ⟨a, b⟩ := hs s h
  refine ⟨(endsWith_iff _ _).mpr a, ?_⟩
  rcases b with b | ⟨b, c, d⟩
  · exact Or.inl b
  · refine Or.inr ⟨b.2, c, (mem_sigsBy.mp h).2.2, fun e1 e2 => ?_⟩
    obtain ⟨d1, d2⟩ := d e1 e2
    have hlt := s.name.labels.toNat_lt
    have hs1 : (s.labels + 1).toNat = s.labels.toNat + 1 := by
      rw [UInt8.toNat_add]
      change (s.labels.toNat + 1) % 256 = _
      omega
    refine ⟨d1, fun _ e => ?_, UInt8.le_iff_toNat_le.mpr (by omega)⟩
    rw [e] at d2
    have : (255 : UInt8).toNat = 255 := rfl
    omega

theorem doZone_inOrderOr {z : Name} {dses : List DS} (hds : z ≠ rootName → dses = dsAt inp z)
    (hc : ZoneInOrder (codeCheck p) p inp z ∨ OnlyUnsupported (codeCheck p) p inp z) (st : VState) :
    (∃ st', doZone dbg p inp z.bytes dses st = .ok st') ∨ doZone dbg p inp z.bytes dses st = .err .unsupported := by
  rcases hc with hc | hc
  · exact Or.inl (doZone_inOrder hds hc st)
  · refine Or.inr ?_
    rw [doZone_eq _ _ _ _ _ _ hds, (zone_unsupported_iff z).mpr hc]
    rfl

theorem zoneLoop_inOrderOr
    (hc : ∀ z, Reached (codeCheck p) p inp z → ZoneInOrder (codeCheck p) p inp z ∨ OnlyUnsupported (codeCheck p) p inp z) :
    ∀ (fuel : Nat) (zone : Bytes) (st : VState),
    (∀ e ∈ st.pending, Reached (codeCheck p) p inp e.1 ∧ e.2 = dsAt inp e.1) →
    zoneLoop dbg p inp fuel zone st = none ∨ (∃ st', zoneLoop dbg p inp fuel zone st = some (.ok st')) ∨
      zoneLoop dbg p inp fuel zone st = some (.err .unsupported) := by
  intro fuel
  induction fuel with
  | zero =>
    intro zone st _
    rw [zoneLoop]
    by_cases h : zone = [dot] ∨ st.pending ≠ []
    · rw [if_pos h]; exact Or.inl rfl
    · rw [if_neg h]; exact Or.inr (Or.inl ⟨_, rfl⟩)
  | succ fuel ih =>
    intro zone st h1
    rw [zoneLoop]
    by_cases h : zone = [dot] ∨ st.pending ≠ []
    · rw [if_pos h]
      cases hp : st.pending with
      | nil =>
        have hz : zone = rootName.bytes := by
          rcases h with h | h
          · exact h
          · exact absurd hp h
        subst hz
        simp only
        rcases doZone_inOrderOr (dbg := dbg) (dses := []) (fun h => absurd rfl h) (hc rootName .root) st with ⟨st1, hd⟩ | hd
        · rw [hd]
          simp only
          obtain ⟨⟨ksig, hk⟩, new, i1, i2, i3, i4⟩ := doZone_pending (fun h => absurd rfl h) hd
          apply ih
          intro e he
          rw [i1, hp, List.append_nil] at he
          obtain ⟨s, a, b, rfl, _⟩ := i3 e he
          exact ⟨.delegated rootName ksig s .root hk a b, rfl⟩
        · rw [hd]; exact Or.inr (Or.inr rfl)
      | cons e rest =>
        obtain ⟨z, ds⟩ := e
        simp only
        obtain ⟨g1, g2⟩ := h1 (z, ds) (by rw [hp]; simp)
        rcases doZone_inOrderOr (dbg := dbg) (fun _ => g2) (hc z g1) { st with pending := rest } with ⟨st1, hd⟩ | hd
        · rw [hd]
          simp only
          obtain ⟨⟨ksig, hk⟩, new, i1, i2, i3, i4⟩ := doZone_pending (fun _ => g2) hd
          apply ih
          intro e he
          rw [i1] at he
          rcases List.mem_append.mp he with he | he
          · obtain ⟨s, a, b, rfl, _⟩ := i3 e he
            exact ⟨.delegated z ksig s g1 hk a b, rfl⟩
          · exact h1 e (by rw [hp]; exact List.mem_cons_of_mem _ he)
        · rw [hd]; exact Or.inr (Or.inr rfl)
    · rw [if_neg h]; exact Or.inr (Or.inl ⟨_, rfl⟩)

theorem verifyRRStream_reports
    (hc : ∀ z, Reached (codeCheck p) p inp z → ZoneInOrder (codeCheck p) p inp z ∨ OnlyUnsupported (codeCheck p) p inp z)
    (hu : ∃ z, Reached (codeCheck p) p inp z ∧ OnlyUnsupported (codeCheck p) p inp z)
    (h2 : RootDelegates (codeCheck p) inp) (h3 : ¬ SelfDelegation (codeCheck p) p inp) :
    ∃ fuel, verifyRRStream dbg p fuel inp = some (.err .unsupported) := by
  obtain ⟨L, hL⟩ := exists_length_bound inp
  have hno : ∀ z, Reached (codeCheck p) p inp z → ∀ s, SignedBy (codeCheck p) inp z s → s.ty = dsType → s.name ≠ z :=
    fun z hz s hs ht hn => h3 ⟨z, hz, s, hs, ht, hn⟩
  have hterm := verifyRRStream_terminates (dbg := dbg) hL h2 hno _ (Nat.le_refl _)
  refine ⟨(inp.length + 1) ^ L, ?_⟩
  unfold verifyRRStream at hterm ⊢
  rcases zoneLoop_inOrderOr (dbg := dbg) hc ((inp.length + 1) ^ L) [dot] VState.init (by simp [VState.init]) with hz | ⟨st, hz⟩ | hz
  · rw [hz] at hterm; simp at hterm
  · obtain ⟨z, hr, hun⟩ := hu
    obtain ⟨ksig, hk⟩ := (zoneLoop_final hz).keys z hr
    have h1 := (zone_unsupported_iff z).mpr hun
    rw [(verifyDnskeys_ok_iff _ _ _ _ _).mpr hk] at h1
    simp at h1
  · rw [hz]

/-! ### Downgrades -/

theorem keysAt_downgraded (z z' : Name) (d : DS) : keysAt (downgraded inp z d) z' = keysAt inp z' := by
  unfold keysAt downgraded
  rw [List.filterMap_append, List.filterMap_filter]
  simp only [List.filterMap_cons, List.filterMap_nil, List.append_nil]
  congr 1
  funext r
  cases r <;> simp

theorem dsAt_downgraded (z z' : Name) (d : DS) : dsAt (downgraded inp z d) z' = dsAt inp z' := by
  unfold dsAt downgraded
  rw [List.filterMap_append, List.filterMap_filter]
  simp only [List.filterMap_cons, List.filterMap_nil, List.append_nil]
  congr 1
  funext r
  cases r <;> simp

theorem anchors_downgraded (z z' : Name) (d : DS) : anchors (downgraded inp z d) z' = anchors inp z' := by
  unfold anchors
  rw [dsAt_downgraded]

theorem sigsBy_downgraded (z z' : Name) (d : DS) : sigsBy (downgraded inp z d) z' = sigsBy inp z' := by
  unfold sigsBy downgraded
  rw [List.filterMap_append, List.filterMap_filter]
  simp only [List.filterMap_cons, madeUp, ne_eq, not_true_eq_false, and_false, if_false, List.filterMap_nil, List.append_nil]
  congr 1
  funext r
  cases r with
  | rrsig s =>
    simp only
    by_cases h : s.name = z ∧ s.ty = 48
    · simp [h]
    · simp [h]
  | _ => simp

theorem keySigs_downgraded {z z' : Name} (d : DS) (h : z' ≠ z) : keySigs (downgraded inp z d) z' = keySigs inp z' := by
  unfold keySigs downgraded
  rw [List.filterMap_append, List.filterMap_filter]
  have h' : ¬ z = z' := fun e => h e.symm
  simp only [List.filterMap_cons, madeUp, h', false_and, if_false, List.filterMap_nil, List.append_nil]
  congr 1
  funext r
  cases r with
  | rrsig s =>
    simp only
    by_cases h' : s.name = z ∧ s.ty = 48
    · have : ¬ (s.name = z' ∧ s.ty = 48) := fun e => h (e.1.symm.trans h'.1)
      rw [if_neg this, if_neg (by simp [h'])]
    · rw [if_pos (decide_eq_true h')]
  | _ => simp

theorem keySigs_downgraded_self (z : Name) (d : DS) : keySigs (downgraded inp z d) z = [madeUp z d] := by
  unfold keySigs downgraded
  rw [List.filterMap_append, List.filterMap_filter]
  simp only [List.filterMap_cons, madeUp, and_self, if_true, List.filterMap_nil]
  rw [List.filterMap_eq_nil_iff.mpr, List.nil_append]
  intro r _
  cases r with
  | rrsig s =>
    simp only
    by_cases h' : s.name = z ∧ s.ty = 48
    · rw [if_neg (by simp [h'])]
    · rw [if_pos (decide_eq_true h'), if_neg h']
  | _ => simp

theorem rrset_downgraded (z n : Name) (d : DS) (ty : UInt16) (h : ty ≠ 46) :
    rrset (downgraded inp z d) n ty = rrset inp n ty := by
  unfold rrset downgraded
  rw [List.filter_append, List.filter_filter]
  have : List.filter (fun r => decide (r.name = n ∧ r.ty = ty)) [RR.rrsig (madeUp z d)] = [] := by
    simp only [List.filter_cons, List.filter_nil]
    rw [if_neg]
    simp only [decide_eq_true_eq, not_and]
    intro _ e
    exact h (e.symm.trans rfl)
  rw [this, List.append_nil]
  congr 1
  funext r
  cases r with
  | rrsig s =>
    have : ¬ (RR.rrsig s).ty = ty := fun e => h (e.symm.trans rfl)
    simp [this]
  | _ => simp

theorem signedRecords_of_labels {sig : RRSig} : ∀ {rs : List RR}, (∀ r ∈ rs, r.name.labels = sig.labels) →
    ∃ b, signedRecords sig rs = some b
  | [], _ => ⟨[], rfl⟩
  | r :: rs, h => by
    obtain ⟨b, hb⟩ := signedRecords_of_labels (fun r' hr => h r' (List.mem_cons_of_mem r hr))
    rw [signedRecords, signedOwner]
    rw [if_neg (by rintro ⟨_, hc⟩; exact hc (by rw [h r (by simp)])), hb]
    exact ⟨_, rfl⟩

theorem madeUp_unsupported {z : Name} {d : DS} {keys validated : List DnsKey} (hkeys : ∀ k ∈ keys, k.name = z)
    {k : DnsKey} (hk : k ∈ validated) (hv : Vouches p d k) (hp : k.protocol = 3) (hf : k.flags.toNat.testBit 8 = true)
    (ha : ¬ Supported d.alg) : (codeCheck p).unsupported (madeUp z d) validated (keys.map .dnskey) := by
  refine (verifyRrsig_unsupported_iff p _ _ _).mpr ⟨?_, ⟨k, hk, ⟨hv.2.1, hp, hf, hv.1.symm⟩⟩, ?_, ha⟩
  · intro r hr
    obtain ⟨k', _, rfl⟩ := List.mem_map.mp hr
    rfl
  · unfold signedData
    have : ∀ r ∈ sortBy RR.partialCmp (keys.map RR.dnskey), r.name.labels = (madeUp z d).labels := by
      intro r hr
      obtain ⟨k', hk', rfl⟩ := List.mem_map.mp ((sortBy_perm _ _).mem_iff.mp hr)
      change k'.name.labels = z.labels
      rw [hkeys k' hk']
    obtain ⟨b, hb⟩ := signedRecords_of_labels this
    rw [hb]
    exact ⟨_, rfl⟩

theorem zoneKeysOk_downgraded {z z' : Name} (d : DS) (h : z' ≠ z) (s : RRSig) :
    ZoneKeysOk (codeCheck p) p (downgraded inp z d) z' s ↔ ZoneKeysOk (codeCheck p) p inp z' s := by
  unfold ZoneKeysOk
  rw [keySigs_downgraded d h, anchors_downgraded, keysAt_downgraded]

theorem signedBy_downgraded (h46 : ∀ s, RR.rrsig s ∈ inp → s.ty ≠ 46) (z z' : Name) (d : DS) (s : RRSig) :
    SignedBy (codeCheck p) (downgraded inp z d) z' s ↔ SignedBy (codeCheck p) inp z' s := by
  unfold SignedBy
  rw [sigsBy_downgraded, keysAt_downgraded]
  constructor
  · rintro ⟨a, b⟩
    rw [rrset_downgraded _ _ _ _ (h46 s (mem_sigsBy.mp a).1)] at b
    exact ⟨a, b⟩
  · rintro ⟨a, b⟩
    rw [← rrset_downgraded z s.name d _ (h46 s (mem_sigsBy.mp a).1)] at b
    exact ⟨a, b⟩

theorem verifyRRStream_downgraded (h1 : InOrder (codeCheck p) p inp) (h2 : RootDelegates (codeCheck p) inp)
    (h3 : ¬ SelfDelegation (codeCheck p) p inp) (h46 : ∀ s, RR.rrsig s ∈ inp → s.ty ≠ 46) {z : Name}
    (hz : Reached (codeCheck p) p inp z) {d : DS} {k : DnsKey} (hd : d ∈ anchors inp z) (hk : k ∈ keysAt inp z)
    (hv : Vouches p d k) (h256 : d.digestType ≠ 1) (hp : k.protocol = 3)
    (hf : k.flags.toNat.testBit 8 = true) (ha : ¬ Supported d.alg) :
    ∃ fuel, verifyRRStream dbg p fuel (downgraded inp z d) = some (.err .unsupported) := by
  have hun : OnlyUnsupported (codeCheck p) p (downgraded inp z d) z := by
    refine ⟨?_, Or.inr ⟨?_, ?_⟩⟩
    · rw [anchors_downgraded]; exact List.ne_nil_of_mem hd
    · rw [keySigs_downgraded_self]; simp
    · rw [keySigs_downgraded_self, keysAt_downgraded, anchors_downgraded]
      intro s hs
      rw [List.mem_singleton] at hs
      subst hs
      refine madeUp_unsupported (fun k hk => (mem_keysAt.mp hk).2) (k := k) ?_ hv hp hf ha
      refine List.mem_filter.mpr ⟨hk, ?_⟩
      simp only [decide_eq_true_eq]
      exact ⟨d, hd, hv, fun e => absurd e h256⟩
  have hsub : ∀ y, Reached (codeCheck p) p (downgraded inp z d) y → y = z ∨ Reached (codeCheck p) p inp y := by
    intro y hy
    induction hy with
    | root => exact Or.inr .root
    | delegated y ksig s _ hy2 hy3 hy4 ih =>
      refine Or.inr ?_
      have hs := (signedBy_downgraded h46 z y d s).mp hy3
      by_cases e : y = z
      · subst e
        obtain ⟨ksig', hk'⟩ := (h1 y hz).1
        exact .delegated y ksig' s hz hk' hs hy4
      · rcases ih with ih | ih
        · exact absurd ih e
        · exact .delegated y ksig s ih ((zoneKeysOk_downgraded d e ksig).mp hy2) hs hy4
  have hsub' : ∀ y, Reached (codeCheck p) p (downgraded inp z d) y → Reached (codeCheck p) p inp y := by
    intro y hy
    rcases hsub y hy with rfl | h
    · exact hz
    · exact h
  have hsup : ∀ y, Reached (codeCheck p) p inp y →
      Reached (codeCheck p) p (downgraded inp z d) y ∨ z.bytes.length < y.bytes.length := by
    intro y hy
    induction hy with
    | root => exact Or.inl .root
    | delegated y ksig s hy1 hy2 hy3 hy4 ih =>
      obtain ⟨pre, hpre⟩ := ((h1 y hy1).2 s hy3.1).1
      have hne : s.name ≠ y := fun e => h3 ⟨y, hy1, s, hy3, hy4, e⟩
      have hpre' : pre ≠ [] := by
        rintro rfl
        exact hne ((Name.ext_iff' _ _).mp (by simpa using hpre))
      have hlen : y.bytes.length < s.name.bytes.length := by
        rw [hpre, List.length_append]
        have := List.length_pos_iff.mpr hpre'
        omega
      rcases ih with ih | ih
      · by_cases e : y = z
        · subst e; exact Or.inr hlen
        · exact Or.inl (.delegated y ksig s ih ((zoneKeysOk_downgraded d e ksig).mpr hy2)
            ((signedBy_downgraded h46 z y d s).mpr hy3) hy4)
      · exact Or.inr (by omega)
  have hz' : Reached (codeCheck p) p (downgraded inp z d) z := by
    rcases hsup z hz with h | h
    · exact h
    · omega
  refine verifyRRStream_reports ?_ ⟨z, hz', hun⟩ ?_ ?_
  · intro y hy
    by_cases e : y = z
    · exact Or.inr (e ▸ hun)
    · refine Or.inl ?_
      obtain ⟨⟨ksig, hks⟩, hs⟩ := h1 y (hsub' y hy)
      refine ⟨⟨ksig, (zoneKeysOk_downgraded d e ksig).mpr hks⟩, ?_⟩
      rw [sigsBy_downgraded]
      intro s hsm
      obtain ⟨a, b⟩ := hs s hsm
      refine ⟨a, ?_⟩
      rw [keysAt_downgraded, rrset_downgraded _ _ _ _ (h46 s (mem_sigsBy.mp hsm).1), signedBy_downgraded h46]
      exact b
  · obtain ⟨s, a, b⟩ := h2
    exact ⟨s, (signedBy_downgraded h46 z rootName d s).mpr a, b⟩
  · rintro ⟨y, hy, s, a, b, c⟩
    exact h3 ⟨y, hsub' y hy, s, (signedBy_downgraded h46 z y d s).mp a, b, c⟩

/-! ### Other notions of good signatures -/

variable {S : SigCheck}

theorem Agrees.onlyUnsupported (h : Agrees p inp S) (z : Name) : OnlyUnsupported (codeCheck p) p inp z ↔ OnlyUnsupported S p inp z := by
  unfold OnlyUnsupported
  have : ∀ s ∈ keySigs inp z, (codeCheck p).unsupported s (anchoredKeys p (anchors inp z) (keysAt inp z)) ((keysAt inp z).map .dnskey) ↔
      S.unsupported s (anchoredKeys p (anchors inp z) (keysAt inp z)) ((keysAt inp z).map .dnskey) :=
    fun s hs => (h s (mem_keySigs.mp hs).1 _ _ (keysAt_records hs)).2
  constructor
  · rintro ⟨a, b | ⟨b, c⟩⟩
    · exact ⟨a, Or.inl b⟩
    · exact ⟨a, Or.inr ⟨b, fun s hs => (this s hs).mp (c s hs)⟩⟩
  · rintro ⟨a, b | ⟨b, c⟩⟩
    · exact ⟨a, Or.inl b⟩
    · exact ⟨a, Or.inr ⟨b, fun s hs => (this s hs).mpr (c s hs)⟩⟩

theorem Agrees.zoneInOrder (h : Agrees p inp S) (z : Name) : ZoneInOrder (codeCheck p) p inp z ↔ ZoneInOrder S p inp z := by
  unfold ZoneInOrder
  have e : (∃ ksig, ZoneKeysOk (codeCheck p) p inp z ksig) ↔ ∃ ksig, ZoneKeysOk S p inp z ksig := by simp only [h.zoneKeysOk]
  rw [e]
  refine and_congr_right fun _ => forall_congr' fun s => forall_congr' fun hs => ?_
  rw [h.unsupported hs, h.signedBy]

theorem Agrees.wishesUnsupported (h : Agrees p inp S) (z : Name) :
    WishesUnsupported (codeCheck p) p inp z ↔ WishesUnsupported S p inp z := by
  unfold WishesUnsupported
  simp only [h.reached, h.authenticated]

end Dnssec
