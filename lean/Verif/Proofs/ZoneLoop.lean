import Verif.Proofs.Validation

/-! # Invariant of the zone loop -/

namespace Dnssec

open Spec

theorem Establishes_unique {p : Platform} {sigs : List RRSig} {dses : List DS} {keys : List DnsKey} {s t : RRSig}
    (hs : Establishes (codeCheck p) p sigs dses keys s) (ht : Establishes (codeCheck p) p sigs dses keys t) : s = t := by
  rw [← verifyDnskeys_ok_iff] at hs ht
  rw [hs] at ht
  simpa using ht

/-- The invariant: `P` is the list of zones processed. -/
structure Inv (dbg : Bool) (p : Platform) (inp : List RR) (P : List Name) (st : VState) : Prop where
  eff : Eff inp (fun s => ∃ z ∈ P, ZoneKeysOk (codeCheck p) p inp z s) (fun s => ∃ z ∈ P, SignedBy (codeCheck p) inp z s) st
  reached : ∀ z ∈ P, Reached (codeCheck p) p inp z
  keys : ∀ z ∈ P, ∃ ksig, ZoneKeysOk (codeCheck p) p inp z ksig
  sigs : ∀ z ∈ P, ∀ s ∈ sigsBy inp z, endsWith s.name.bytes z.bytes = true ∧
    ((codeCheck p).unsupported s (keysAt inp z) (rrset inp s.name s.ty) ∨ SignedBy (codeCheck p) inp z s ∧ Acceptable dbg s)
  deleg : ∀ z ∈ P, ∀ s, SignedBy (codeCheck p) inp z s → s.ty = dsType → s.name ∈ P ∨ ∃ e ∈ st.pending, e.1 = s.name
  pend : ∀ e ∈ st.pending, Reached (codeCheck p) p inp e.1 ∧ e.2 = dsAt inp e.1
  self : ∀ z ∈ P, ∀ s, SignedBy (codeCheck p) inp z s → s.ty = dsType → s.name = z → ∃ e ∈ st.pending, e.1 = z

theorem Inv.init (dbg : Bool) (p : Platform) (inp : List RR) : Inv dbg p inp [] VState.init := by
  refine ⟨(Eff.init inp).congr (by simp) (by simp), ?_, ?_, ?_, ?_, ?_, ?_⟩ <;> simp [VState.init]

theorem rootHints_iana : rootHints = ianaAnchors := by decide +kernel

theorem doZone_eq (dbg : Bool) (p : Platform) (inp : List RR) (z : Name) (dses : List DS) (st : VState)
    (h : z ≠ rootName → dses = dsAt inp z) :
    doZone dbg p inp z.bytes dses st =
      (verifyDnskeys p (keySigs inp z) (anchors inp z) (keysAt inp z)).bind
        (fun sig => sigLoop dbg p inp z.bytes (sigsBy inp z) (st.note sig)) := by
  unfold doZone
  rw [dnskeyRrsigs_eq, zoneKeys_eq, zoneRrsigs_eq]
  have : (if z.bytes = [dot] then rootHints else dses) = anchors inp z := by
    unfold anchors
    by_cases hz : z = rootName
    · rw [if_pos hz, if_pos (by rw [hz]; rfl), rootHints_iana]
    · rw [if_neg hz, if_neg (fun h' : z.bytes = [dot] => hz ((Name.ext_iff' z rootName).mp h')), h hz]
  rw [this]

theorem note_pending (st : VState) (sig : RRSig) : (st.note sig).pending = st.pending := rfl

theorem doZone_step {dbg : Bool} {p : Platform} {inp : List RR} {P : List Name} {z : Name} {dses : List DS} {st st' : VState}
    (heff : Eff inp (fun s => ∃ z ∈ P, ZoneKeysOk (codeCheck p) p inp z s) (fun s => ∃ z ∈ P, SignedBy (codeCheck p) inp z s) st)
    (hreached : ∀ z ∈ P, Reached (codeCheck p) p inp z)
    (hkeys : ∀ z ∈ P, ∃ ksig, ZoneKeysOk (codeCheck p) p inp z ksig)
    (hsigs : ∀ z ∈ P, ∀ s ∈ sigsBy inp z, endsWith s.name.bytes z.bytes = true ∧
      ((codeCheck p).unsupported s (keysAt inp z) (rrset inp s.name s.ty) ∨ SignedBy (codeCheck p) inp z s ∧ Acceptable dbg s))
    (hdeleg : ∀ z' ∈ P, ∀ s, SignedBy (codeCheck p) inp z' s → s.ty = dsType → s.name ∈ z :: P ∨ ∃ e ∈ st.pending, e.1 = s.name)
    (hpend : ∀ e ∈ st.pending, Reached (codeCheck p) p inp e.1 ∧ e.2 = dsAt inp e.1)
    (hself : ∀ z' ∈ P, ∀ s, SignedBy (codeCheck p) inp z' s → s.ty = dsType → s.name = z' →
      z' = z ∨ ∃ e ∈ st.pending, e.1 = z')
    (hz : Reached (codeCheck p) p inp z) (hds : z ≠ rootName → dses = dsAt inp z)
    (h : doZone dbg p inp z.bytes dses st = .ok st') : Inv dbg p inp (z :: P) st' := by
  rw [doZone_eq _ _ _ _ _ _ hds] at h
  cases hk : verifyDnskeys p (keySigs inp z) (anchors inp z) (keysAt inp z) with
  | err e => rw [hk] at h; simp [Res.bind] at h
  | panic => rw [hk] at h; simp [Res.bind] at h
  | ok ksig =>
    rw [hk] at h
    simp only [Res.bind] at h
    have hks : ZoneKeysOk (codeCheck p) p inp z ksig := (verifyDnskeys_ok_iff _ _ _ _ _).mp hk
    obtain ⟨i1, i2, i3, i4, i5⟩ := sigLoop_ok (heff.noteK ksig) h
    rw [note_pending] at i3 i5
    refine ⟨i1.congr ?_ ?_, ?_, ?_, ?_, ?_, ?_, ?_⟩
    · intro s
      constructor
      · rintro (⟨z', a, b⟩ | rfl)
        · exact ⟨z', by simp [a], b⟩
        · exact ⟨z, by simp, hks⟩
      · rintro ⟨z', a, b⟩
        rcases List.mem_cons.mp a with rfl | a
        · exact Or.inr (Establishes_unique b hks)
        · exact Or.inl ⟨z', a, b⟩
    · intro s
      constructor
      · rintro (⟨z', a, b⟩ | ⟨a, b⟩)
        · exact ⟨z', by simp [a], b⟩
        · exact ⟨z, by simp, a, b⟩
      · rintro ⟨z', a, b⟩
        rcases List.mem_cons.mp a with rfl | a
        · exact Or.inr b
        · exact Or.inl ⟨z', a, b⟩
    · intro z' h'
      rcases List.mem_cons.mp h' with rfl | h'
      · exact hz
      · exact hreached z' h'
    · intro z' h'
      rcases List.mem_cons.mp h' with rfl | h'
      · exact ⟨ksig, hks⟩
      · exact hkeys z' h'
    · intro z' h' s hs
      rcases List.mem_cons.mp h' with rfl | h'
      · obtain ⟨a, b⟩ := i2 s hs
        refine ⟨a, ?_⟩
        rcases b with b | ⟨b, c⟩
        · exact Or.inl b
        · exact Or.inr ⟨⟨hs, b⟩, c⟩
      · exact hsigs z' h' s hs
    · intro z' h' s hs hty
      rcases List.mem_cons.mp h' with rfl | h'
      · exact Or.inr (i4 s hs.1 hs.2 hty)
      · rcases hdeleg z' h' s hs hty with a | ⟨e, a, b⟩
        · exact Or.inl a
        · exact Or.inr ⟨e, i3 e a, b⟩
    · intro e he
      rcases i5 e he with a | ⟨s, hs, hv, hty, rfl⟩
      · exact hpend e a
      · exact ⟨.delegated z ksig s hz hks ⟨hs, hv⟩ hty, rfl⟩
    · intro z' h' s hs hty hn
      have hz' : z' = z ∨ ∃ e ∈ st.pending, e.1 = z' := by
        rcases List.mem_cons.mp h' with rfl | h'
        · exact Or.inl rfl
        · exact hself z' h' s hs hty hn
      rcases hz' with rfl | ⟨e, a, b⟩
      · obtain ⟨e, a, b⟩ := i4 s hs.1 hs.2 hty
        exact ⟨e, a, b.trans hn⟩
      · exact ⟨e, i3 e a, b⟩

theorem zoneLoop_inv {dbg : Bool} {p : Platform} {inp : List RR} : ∀ {fuel : Nat} {zone : Bytes} {st st' : VState} {P : List Name},
    zoneLoop dbg p inp fuel zone st = some (.ok st') → Inv dbg p inp P st →
    (rootName ∈ P ∨ (zone = [dot] ∧ st.pending = [])) →
    ∃ P', Inv dbg p inp P' st' ∧ st'.pending = [] ∧ rootName ∈ P'
  | 0, zone, st, st', P, h, hI, hr => by
    rw [zoneLoop] at h
    by_cases hc : zone = [dot] ∨ st.pending ≠ []
    · rw [if_pos hc] at h; simp at h
    · rw [if_neg hc] at h
      simp only [Option.some.injEq, Res.ok.injEq] at h; subst h
      rw [not_or] at hc
      refine ⟨P, hI, Decidable.not_not.mp hc.2, ?_⟩
      rcases hr with hr | ⟨hr, _⟩
      · exact hr
      · exact absurd hr hc.1
  | fuel + 1, zone, st, st', P, h, hI, hr => by
    rw [zoneLoop] at h
    by_cases hc : zone = [dot] ∨ st.pending ≠ []
    · rw [if_pos hc] at h
      cases hp : st.pending with
      | nil =>
        rw [hp] at h
        simp only at h
        have hzone : zone = [dot] := by
          rcases hc with hc | hc
          · exact hc
          · exact absurd hp hc
        subst hzone
        cases hd : doZone dbg p inp [dot] [] st with
        | err e => rw [hd] at h; simp at h
        | panic => rw [hd] at h; simp at h
        | ok st1 =>
          rw [hd] at h
          simp only at h
          have hI' : Inv dbg p inp (rootName :: P) st1 :=
            doZone_step (z := rootName) (dses := []) hI.eff hI.reached hI.keys hI.sigs
              (fun z' h' s hs ht => (hI.deleg z' h' s hs ht).elim (fun a => Or.inl (List.mem_cons_of_mem _ a)) Or.inr)
              hI.pend (fun z' h' s hs ht hn => Or.inr (hI.self z' h' s hs ht hn)) .root (fun h => absurd rfl h) hd
          exact zoneLoop_inv h hI' (Or.inl (by simp))
      | cons e rest =>
        obtain ⟨z, ds⟩ := e
        rw [hp] at h
        simp only at h
        cases hd : doZone dbg p inp z.bytes ds { st with pending := rest } with
        | err e => rw [hd] at h; simp at h
        | panic => rw [hd] at h; simp at h
        | ok st1 =>
          rw [hd] at h
          simp only at h
          obtain ⟨g1, g2⟩ := hI.pend (z, ds) (by rw [hp]; simp)
          have heff := hI.eff
          have hI' : Inv dbg p inp (z :: P) st1 :=
            doZone_step (st := { st with pending := rest }) ⟨heff.1, heff.2, heff.3, heff.4, heff.5, heff.6, heff.7, heff.8, heff.9⟩
              hI.reached hI.keys hI.sigs
              (by
                intro z' h' s hs ht
                rcases hI.deleg z' h' s hs ht with a | ⟨e, a, b⟩
                · exact Or.inl (by simp [a])
                · rw [hp] at a
                  rcases List.mem_cons.mp a with rfl | a
                  · exact Or.inl (by simp [← b])
                  · exact Or.inr ⟨e, a, b⟩)
              (fun e he => hI.pend e (by rw [hp]; exact List.mem_cons_of_mem _ he))
              (by
                intro z' h' s hs ht hn
                obtain ⟨e, a, b⟩ := hI.self z' h' s hs ht hn
                rw [hp] at a
                rcases List.mem_cons.mp a with rfl | a
                · exact Or.inl b.symm
                · exact Or.inr ⟨e, a, b⟩)
              g1 (fun _ => g2) hd
          refine zoneLoop_inv h hI' (Or.inl ?_)
          rcases hr with hr | ⟨_, hr⟩
          · simp [hr]
          · rw [hp] at hr; simp at hr
    · rw [if_neg hc] at h
      simp only [Option.some.injEq, Res.ok.injEq] at h; subst h
      rw [not_or] at hc
      refine ⟨P, hI, Decidable.not_not.mp hc.2, ?_⟩
      rcases hr with hr | ⟨hr, _⟩
      · exact hr
      · exact absurd hr hc.1

/-- What holds after the zone loop. -/
structure Final (dbg : Bool) (p : Platform) (inp : List RR) (st : VState) : Prop where
  eff : Eff inp (fun s => ∃ z, Reached (codeCheck p) p inp z ∧ ZoneKeysOk (codeCheck p) p inp z s)
    (fun s => ∃ z, Reached (codeCheck p) p inp z ∧ SignedBy (codeCheck p) inp z s) st
  keys : ∀ z, Reached (codeCheck p) p inp z → ∃ ksig, ZoneKeysOk (codeCheck p) p inp z ksig
  sigs : ∀ z, Reached (codeCheck p) p inp z → ∀ s ∈ sigsBy inp z, endsWith s.name.bytes z.bytes = true ∧
    ((codeCheck p).unsupported s (keysAt inp z) (rrset inp s.name s.ty) ∨ SignedBy (codeCheck p) inp z s ∧ Acceptable dbg s)
  noSelf : ∀ z, Reached (codeCheck p) p inp z → ∀ s, SignedBy (codeCheck p) inp z s → s.ty = dsType → s.name ≠ z

theorem zoneLoop_final {dbg : Bool} {p : Platform} {inp : List RR} {fuel : Nat} {st : VState}
    (h : zoneLoop dbg p inp fuel [dot] VState.init = some (.ok st)) : Final dbg p inp st := by
  obtain ⟨P, hI, hp, hroot⟩ := zoneLoop_inv h (Inv.init dbg p inp) (Or.inr ⟨rfl, rfl⟩)
  have hall : ∀ z, z ∈ P ↔ Reached (codeCheck p) p inp z := by
    intro z
    constructor
    · exact hI.reached z
    · intro hz
      induction hz with
      | root => exact hroot
      | delegated z ksig sig h1 h2 h3 h4 ih =>
        rcases hI.deleg z ih sig h3 h4 with a | ⟨e, a, _⟩
        · exact a
        · rw [hp] at a; simp at a
  refine ⟨hI.eff.congr ?_ ?_, ?_, ?_, ?_⟩
  · intro s; simp only [hall]
  · intro s; simp only [hall]
  · intro z hz; exact hI.keys z ((hall z).mpr hz)
  · intro z hz; exact hI.sigs z ((hall z).mpr hz)
  · intro z hz s hs ht hn
    obtain ⟨e, a, _⟩ := hI.self z ((hall z).mpr hz) s hs ht hn
    rw [hp] at a; simp at a

theorem verifyRRStream_ok {dbg : Bool} {p : Platform} {inp : List RR} {fuel : Nat} {v : Verified}
    (h : verifyRRStream dbg p fuel inp = some (.ok v)) :
    ∃ st, Final dbg p inp st ∧ st.res ≠ [] ∧ st.latestInception < st.earliestExpiry ∧
      proofLoop p st.res (p.sortNeeds st.needs).length (p.sortNeeds st.needs).reverse = .ok () ∧
      v.verifiedRrs = st.res.filter (fun rr => rr.ty != nsecType && rr.ty != nsec3Type) ∧
      v.validFrom = st.latestInception ∧ v.expires = st.earliestExpiry ∧ v.maxCacheTtl = st.minTtl := by
  unfold verifyRRStream at h
  cases hz : zoneLoop dbg p inp fuel [dot] VState.init with
  | none => rw [hz] at h; simp at h
  | some r =>
    cases r with
    | err e => rw [hz] at h; simp at h
    | panic => rw [hz] at h; simp at h
    | ok st =>
      rw [hz] at h
      simp only [Option.some.injEq] at h
      unfold finishVerify at h
      by_cases h1 : st.res.isEmpty = true
      · rw [if_pos h1] at h; simp at h
      rw [if_neg h1] at h
      by_cases h2 : st.latestInception ≥ st.earliestExpiry
      · rw [if_pos h2] at h; simp at h
      rw [if_neg h2] at h
      simp only [List.length_reverse] at h
      cases h3 : proofLoop p st.res (p.sortNeeds st.needs).length (p.sortNeeds st.needs).reverse with
      | err e => rw [h3] at h; simp [Res.bind] at h
      | panic => rw [h3] at h; simp [Res.bind] at h
      | ok u =>
        rw [h3] at h
        simp only [Res.bind, Res.ok.injEq] at h
        subst h
        exact ⟨st, zoneLoop_final hz, by simpa using h1, by omega, by cases u; exact h3, rfl, rfl, rfl, rfl⟩

/-! ### Transfer to the RFC notion of a good signature -/

/-- The two notions agree on signatures and records of this input. -/
def Agrees (p : Platform) (inp : List RR) (S : SigCheck) : Prop :=
  ∀ s, RR.rrsig s ∈ inp → ∀ keys records, (∀ r ∈ records, r ∈ inp ∧ r.name = s.name ∧ r.ty = s.ty) →
    (verifyRrsig p s keys records = .ok () ↔ S.good s keys records) ∧
    (verifyRrsig p s keys records = .err .unsupported ↔ S.unsupported s keys records)

theorem agrees_code (p : Platform) (inp : List RR) : Agrees p inp (codeCheck p) :=
  fun _ _ _ _ _ => ⟨Iff.rfl, Iff.rfl⟩

theorem agrees_rfc (p : Platform) (inp : List RR) (h : ProperInput inp) : Agrees p inp (rfcCheck p) := by
  intro s hs keys records hr
  have hk := h.signers s hs
  have hn : Proper records :=
    ⟨fun r hm => h.owners r (hr r hm).1, fun r hm r' hm' => (hr r hm).2.1.trans (hr r' hm').2.1.symm,
     fun t hm => h.txt t (hr _ hm).1,
     fun r hm r' hm' => h.order s hs r (hr r hm).1 r' (hr r' hm').1 (hr r hm).2.1 (hr r hm).2.2 (hr r' hm').2.1 (hr r' hm').2.2⟩
  have ht : ∀ r ∈ records, r.ty = s.ty := fun r hm => (hr r hm).2.2
  constructor
  · rw [verifyRrsig_ok_iff]
    unfold GoodSigM rfcCheck GoodSig
    simp only [signedData_iff hk hn ht]
  · rw [verifyRrsig_unsupported_iff]
    unfold rfcCheck
    simp only [signedData_iff hk hn ht]

variable {p : Platform} {inp : List RR} {S : SigCheck}

theorem Agrees.signedBy (h : Agrees p inp S) (z : Name) (s : RRSig) : SignedBy (codeCheck p) inp z s ↔ SignedBy S inp z s := by
  unfold SignedBy
  constructor
  · rintro ⟨a, b⟩
    exact ⟨a, ((h s (mem_sigsBy.mp a).1 _ _ (fun r hr => mem_rrset.mp hr)).1).mp b⟩
  · rintro ⟨a, b⟩
    exact ⟨a, ((h s (mem_sigsBy.mp a).1 _ _ (fun r hr => mem_rrset.mp hr)).1).mpr b⟩

theorem keysAt_records {z : Name} {s : RRSig} (hs : s ∈ keySigs inp z) :
    ∀ r ∈ (keysAt inp z).map RR.dnskey, r ∈ inp ∧ r.name = s.name ∧ r.ty = s.ty := by
  intro r hr
  obtain ⟨k, hk, rfl⟩ := List.mem_map.mp hr
  obtain ⟨_, h1, h2⟩ := mem_keySigs.mp hs
  obtain ⟨h3, h4⟩ := mem_keysAt.mp hk
  exact ⟨h3, by rw [h1]; exact h4, by rw [h2]; rfl⟩

theorem Agrees.zoneKeysOk (h : Agrees p inp S) (z : Name) (s : RRSig) :
    ZoneKeysOk (codeCheck p) p inp z s ↔ ZoneKeysOk S p inp z s := by
  unfold ZoneKeysOk Establishes
  have hm : ∀ before after t, keySigs inp z = before ++ t :: after → (∀ x ∈ before, x ∈ keySigs inp z) ∧ t ∈ keySigs inp z := by
    intro before after t e
    exact ⟨fun x hx => by rw [e]; simp [hx], by rw [e]; simp⟩
  constructor
  · rintro ⟨a, before, after, e, b, c⟩
    refine ⟨a, before, after, e, ?_, ?_⟩
    · intro x hx
      exact ((h x (mem_keySigs.mp ((hm _ _ _ e).1 x hx)).1 _ _ (keysAt_records ((hm _ _ _ e).1 x hx))).2).mp (b x hx)
    · exact ((h s (mem_keySigs.mp (hm _ _ _ e).2).1 _ _ (keysAt_records (hm _ _ _ e).2)).1).mp c
  · rintro ⟨a, before, after, e, b, c⟩
    refine ⟨a, before, after, e, ?_, ?_⟩
    · intro x hx
      exact ((h x (mem_keySigs.mp ((hm _ _ _ e).1 x hx)).1 _ _ (keysAt_records ((hm _ _ _ e).1 x hx))).2).mpr (b x hx)
    · exact ((h s (mem_keySigs.mp (hm _ _ _ e).2).1 _ _ (keysAt_records (hm _ _ _ e).2)).1).mpr c

theorem Agrees.reached (h : Agrees p inp S) (z : Name) : Reached (codeCheck p) p inp z ↔ Reached S p inp z := by
  constructor
  · intro hz
    induction hz with
    | root => exact .root
    | delegated z ksig sig _ h2 h3 h4 ih =>
      exact .delegated z ksig sig ih ((h.zoneKeysOk z ksig).mp h2) ((h.signedBy z sig).mp h3) h4
  · intro hz
    induction hz with
    | root => exact .root
    | delegated z ksig sig _ h2 h3 h4 ih =>
      exact .delegated z ksig sig ih ((h.zoneKeysOk z ksig).mpr h2) ((h.signedBy z sig).mpr h3) h4

theorem Agrees.used (h : Agrees p inp S) (s : RRSig) : Used (codeCheck p) p inp s ↔ Used S p inp s := by
  unfold Used
  simp only [h.reached, h.zoneKeysOk, h.signedBy]

theorem Agrees.authenticated (h : Agrees p inp S) (r : RR) : Authenticated (codeCheck p) p inp r ↔ Authenticated S p inp r := by
  unfold Authenticated
  simp only [h.reached, h.zoneKeysOk, h.signedBy]

end Dnssec
