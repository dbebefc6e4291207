import Verif.Proofs.Permute
import Verif.Spec.Relevant

/-! # Records that do not matter have no effect on `verify_rr_stream` -/

namespace Dnssec

open Spec

theorem filterMap_filter_keep {α β : Type} (f : α → Option β) (K : α → Bool) :
    ∀ (l : List α), (∀ x ∈ l, f x ≠ none → K x = true) → (l.filter K).filterMap f = l.filterMap f := by
  intro l
  induction l with
  | nil => intro _; rfl
  | cons x xs ih =>
    intro h
    have ih := ih (fun y hy => h y (List.mem_cons_of_mem _ hy))
    by_cases hk : K x = true
    · rw [List.filter_cons_of_pos hk]
      simp only [List.filterMap_cons, ih]
    · rw [List.filter_cons_of_neg hk, ih]
      have hn : f x = none := by
        cases hf : f x with
        | none => rfl
        | some v => exact absurd (h x List.mem_cons_self (by rw [hf]; simp)) hk
      simp [hn]

variable {inp : List RR} {K : RR → Bool}

theorem keySigs_keep (hK : ∀ r ∈ inp, Relevant inp r → K r = true) {z : Name} (hz : Delegated inp z) :
    keySigs (inp.filter K) z = keySigs inp z := by
  apply filterMap_filter_keep
  intro x hx hf
  cases x with
  | rrsig s =>
    by_cases h : s.name = z ∧ s.ty = 48
    · exact hK _ hx ⟨s, hx, by simpa [sigZone, h.2, h.1] using hz, Or.inl rfl⟩
    · simp [h] at hf
  | _ => exact absurd rfl hf

theorem sigsBy_keep (hK : ∀ r ∈ inp, Relevant inp r → K r = true) {z : Name} (hz : Delegated inp z) :
    sigsBy (inp.filter K) z = sigsBy inp z := by
  apply filterMap_filter_keep
  intro x hx hf
  cases x with
  | rrsig s =>
    by_cases h : s.keyName = z ∧ s.ty ≠ 48
    · exact hK _ hx ⟨s, hx, by simpa [sigZone, h.2, h.1] using hz, Or.inl rfl⟩
    · simp [h] at hf
  | _ => exact absurd rfl hf

theorem rrset_keep (hK : ∀ r ∈ inp, Relevant inp r → K r = true) {s : RRSig} (hs : RR.rrsig s ∈ inp)
    (hz : Delegated inp (sigZone s)) : rrset (inp.filter K) s.name s.ty = rrset inp s.name s.ty := by
  unfold rrset
  rw [List.filter_filter]
  apply List.filter_congr
  intro r hr
  by_cases h : r.name = s.name ∧ r.ty = s.ty
  · simp [h, hK r hr ⟨s, hs, hz, Or.inr h⟩]
  · simp [h]

theorem keysAt_keep (hK : ∀ r ∈ inp, Relevant inp r → K r = true) {z : Name} (hz : Delegated inp z)
    {s : RRSig} (hs : s ∈ keySigs inp z) : keysAt (inp.filter K) z = keysAt inp z := by
  obtain ⟨h1, h2, h3⟩ := mem_keySigs.mp hs
  apply filterMap_filter_keep
  intro x hx hf
  cases x with
  | dnskey k =>
    by_cases h : k.name = z
    · refine hK _ hx ⟨s, h1, by simpa [sigZone, h3, h2] using hz, Or.inr ⟨?_, ?_⟩⟩
      · simp [RR.name, h, h2]
      · simp [RR.ty, h3, dnskeyType]
    · simp [h] at hf
  | _ => exact absurd rfl hf

/-- Without signatures over the key set the keys do not matter. -/
theorem verifyDnskeys_nil (p : Platform) (dses : List DS) (ks ks' : List DnsKey) :
    verifyDnskeys p [] dses ks = verifyDnskeys p [] dses ks' := by
  unfold verifyDnskeys dnskeySigLoop; rfl

theorem acceptSig_keep (dbg : Bool) (hK : ∀ r ∈ inp, Relevant inp r → K r = true) {s : RRSig} (hs : RR.rrsig s ∈ inp)
    (hz : Delegated inp (sigZone s)) (st : VState) :
    acceptSig dbg (inp.filter K) s st = acceptSig dbg inp s st := by
  have h := rrset_keep hK hs hz
  unfold acceptSig dsSet
  simp only [coveredRecords_eq, h]

theorem sigLoop_keep (dbg : Bool) (p : Platform) (hK : ∀ r ∈ inp, Relevant inp r → K r = true) {z : Name}
    (hz : Delegated inp z) (hkeys : keysAt (inp.filter K) z = keysAt inp z) : ∀ (sigs : List RRSig) (st : VState),
    (∀ s ∈ sigs, s ∈ sigsBy inp z) →
    sigLoop dbg p (inp.filter K) z.bytes sigs st = sigLoop dbg p inp z.bytes sigs st := by
  intro sigs
  induction sigs with
  | nil => intro st _; rfl
  | cons s ss ih =>
    intro st hm
    obtain ⟨h1, h2, h3⟩ := mem_sigsBy.mp (hm s List.mem_cons_self)
    have hsz : Delegated inp (sigZone s) := by simpa [sigZone, h3, h2] using hz
    unfold sigLoop
    simp only [coveredRecords_eq, zoneKeys_eq, rrset_keep hK h1 hsz, hkeys, acceptSig_keep dbg hK h1 hsz,
      funext (fun st => ih st (fun s hs => hm s (List.mem_cons_of_mem _ hs)))]

/-- The zones waiting to be visited: delegations lead to them, or there are no DS records for them. -/
def PendingOk (inp : List RR) (pending : List (Name × List DS)) : Prop :=
  ∀ e ∈ pending, Delegated inp e.1 ∨ e.2 = []

theorem acceptSig_pendingOk {dbg : Bool} {s : RRSig} (hs : RR.rrsig s ∈ inp) (hz : Delegated inp s.keyName) {st st' : VState}
    (h : acceptSig dbg inp s st = .ok st') (hp : PendingOk inp st.pending) : PendingOk inp st'.pending := by
  unfold acceptSig at h
  split at h
  · cases h
  · split at h
    · rename_i hty
      split at h
      · cases h; exact hp
      · cases h
        intro e he
        rcases List.mem_cons.mp he with rfl | he
        · show Delegated inp s.name ∨ dsSet inp s = []
          rw [dsSet_eq inp s hty]
          cases hd : dsAt inp s.name with
          | nil => exact Or.inr rfl
          | cons d ds =>
            have := mem_dsAt.mp (by rw [hd]; exact List.mem_cons_self : d ∈ dsAt inp s.name)
            exact Or.inl (.step s d hs hty hz this.1 this.2)
        · exact hp e he
    · simp only at h
      split at h
      · split at h
        · cases h
        · unfold labelsPlusOne at h
          split at h
          · cases h
          · simp only [Res.bind] at h
            split at h
            · cases h
            · cases h; exact hp
      · cases h; exact hp

theorem sigLoop_pendingOk {dbg : Bool} {p : Platform} {z : Name} (hz : Delegated inp z) : ∀ (sigs : List RRSig) (st st' : VState),
    (∀ s ∈ sigs, s ∈ sigsBy inp z) → sigLoop dbg p inp z.bytes sigs st = .ok st' → PendingOk inp st.pending →
    PendingOk inp st'.pending := by
  intro sigs
  induction sigs with
  | nil => intro st st' _ h hp; unfold sigLoop at h; cases h; exact hp
  | cons s ss ih =>
    intro st st' hm h hp
    obtain ⟨h1, h2, h3⟩ := mem_sigsBy.mp (hm s List.mem_cons_self)
    have ih := fun st st' => ih st st' (fun s hs => hm s (List.mem_cons_of_mem _ hs))
    unfold sigLoop at h
    split at h
    · cases h
    · split at h
      · exact ih _ _ h hp
      · cases h
      · cases h
      · cases ha : acceptSig dbg inp s (st.note s) with
        | ok st1 =>
          rw [ha] at h
          exact ih _ _ h (acceptSig_pendingOk h1 (h2 ▸ hz) ha hp)
        | err e => rw [ha] at h; cases h
        | panic => rw [ha] at h; cases h

theorem doZone_keep (dbg : Bool) (p : Platform) (hK : ∀ r ∈ inp, Relevant inp r → K r = true) {z : Name} {dses : List DS}
    (hz : Delegated inp z ∨ dses = []) (st : VState) :
    doZone dbg p (inp.filter K) z.bytes dses st = doZone dbg p inp z.bytes dses st := by
  unfold doZone
  simp only [dnskeyRrsigs_eq, zoneKeys_eq, zoneRrsigs_eq]
  have main : Delegated inp z →
      (verifyDnskeys p (keySigs (inp.filter K) z) (if z.bytes = [dot] then rootHints else dses) (keysAt (inp.filter K) z)).bind
        (fun sig => sigLoop dbg p (inp.filter K) z.bytes (sigsBy (inp.filter K) z) (st.note sig)) =
      (verifyDnskeys p (keySigs inp z) (if z.bytes = [dot] then rootHints else dses) (keysAt inp z)).bind
        (fun sig => sigLoop dbg p inp z.bytes (sigsBy inp z) (st.note sig)) := by
    intro hd
    rw [keySigs_keep hK hd, sigsBy_keep hK hd]
    cases hs : keySigs inp z with
    | nil =>
      rw [verifyDnskeys_nil p _ (keysAt (inp.filter K) z) (keysAt inp z)]
      cases hv : verifyDnskeys p [] (if z.bytes = [dot] then rootHints else dses) (keysAt inp z) with
      | ok sig =>
        exfalso
        generalize (if z.bytes = [dot] then rootHints else dses) = ds at hv
        unfold verifyDnskeys dnskeySigLoop at hv
        split at hv
        · cases hv
        · split at hv <;> simp at hv
      | err e => rfl
      | panic => rfl
    | cons s ss =>
      have hk := keysAt_keep hK hd (s := s) (by rw [hs]; exact List.mem_cons_self)
      rw [hk]
      congr 1
      funext sig
      exact sigLoop_keep dbg p hK hd hk _ _ (fun s hs => hs)
  rcases hz with hz | hz
  · exact main hz
  · by_cases hr : z.bytes = [dot]
    · exact main ((Name.ext_iff' z rootName).mp hr ▸ Delegated.root)
    · subst hz
      rw [if_neg hr]
      rfl

theorem doZone_pendingOk {dbg : Bool} {p : Platform} {z : Name} {dses : List DS} (hz : Delegated inp z ∨ dses = []) {st st' : VState}
    (h : doZone dbg p inp z.bytes dses st = .ok st') (hp : PendingOk inp st.pending) : PendingOk inp st'.pending := by
  unfold doZone at h
  simp only [dnskeyRrsigs_eq, zoneKeys_eq, zoneRrsigs_eq] at h
  have main : Delegated inp z → PendingOk inp st'.pending := by
    intro hd
    cases hv : verifyDnskeys p (keySigs inp z) (if z.bytes = [dot] then rootHints else dses) (keysAt inp z) with
    | ok sig =>
      rw [hv] at h
      exact sigLoop_pendingOk hd _ _ _ (fun s hs => hs) h hp
    | err e => rw [hv] at h; cases h
    | panic => rw [hv] at h; cases h
  rcases hz with hz | hz
  · exact main hz
  · by_cases hr : z.bytes = [dot]
    · exact main ((Name.ext_iff' z rootName).mp hr ▸ Delegated.root)
    · subst hz
      rw [if_neg hr] at h
      cases h

theorem zoneLoop_keep (dbg : Bool) (p : Platform) (hK : ∀ r ∈ inp, Relevant inp r → K r = true) : ∀ (fuel : Nat) (zone : Bytes) (st : VState),
    PendingOk inp st.pending → zoneLoop dbg p (inp.filter K) fuel zone st = zoneLoop dbg p inp fuel zone st := by
  intro fuel
  induction fuel with
  | zero => intro zone st _; unfold zoneLoop; rfl
  | succ fuel ih =>
    intro zone st hp
    unfold zoneLoop
    split
    · rename_i hc
      cases hpd : st.pending with
      | nil =>
        simp only
        have hzone : zone = rootName.bytes := by
          rcases hc with hc | hc
          · exact hc
          · exact absurd hpd hc
        subst hzone
        have hd : Delegated inp rootName ∨ ([] : List DS) = [] := Or.inl .root
        rw [doZone_keep dbg p hK hd]
        cases hv : doZone dbg p inp rootName.bytes [] st with
        | ok st' => exact ih _ _ (doZone_pendingOk hd hv hp)
        | err e => rfl
        | panic => rfl
      | cons e rest =>
        obtain ⟨z, ds⟩ := e
        simp only
        have hd : Delegated inp z ∨ ds = [] := hp (z, ds) (by rw [hpd]; exact List.mem_cons_self)
        have hp' : PendingOk inp ({ st with pending := rest } : VState).pending :=
          fun e he => hp e (by rw [hpd]; exact List.mem_cons_of_mem _ he)
        rw [doZone_keep dbg p hK hd]
        cases hv : doZone dbg p inp z.bytes ds { st with pending := rest } with
        | ok st' => exact ih _ _ (doZone_pendingOk hd hv hp')
        | err e => rfl
        | panic => rfl
    · rfl

theorem verifyRRStream_keep (dbg : Bool) (p : Platform) (fuel : Nat) (hK : ∀ r ∈ inp, Relevant inp r → K r = true) :
    verifyRRStream dbg p fuel (inp.filter K) = verifyRRStream dbg p fuel inp := by
  unfold verifyRRStream
  rw [zoneLoop_keep dbg p hK fuel [dot] VState.init (fun e he => by cases he)]

/-! ### Inserting a record -/

theorem delegated_mono {l l' : List RR} (h : ∀ r ∈ l, r ∈ l') {z : Name} (hd : Delegated l z) : Delegated l' z := by
  induction hd with
  | root => exact .root
  | step s d h1 h2 _ h4 h5 ih => exact .step s d (h _ h1) h2 ih (h _ h4) h5

theorem relevant_mono {l l' : List RR} (h : ∀ r ∈ l, r ∈ l') {r : RR} (hr : Relevant l r) : Relevant l' r := by
  obtain ⟨s, h1, h2, h3⟩ := hr
  exact ⟨s, h _ h1, delegated_mono h h2, h3⟩

/-- Delegations use relevant records only. -/
theorem delegated_keep (hK : ∀ r ∈ inp, Relevant inp r → K r = true) {z : Name} (hd : Delegated inp z) : Delegated (inp.filter K) z := by
  induction hd with
  | root => exact .root
  | step s d h1 h2 h3 h4 h5 ih =>
    have hsz : Delegated inp (sigZone s) := by simpa [sigZone, h2] using h3
    refine .step s d (List.mem_filter.mpr ⟨h1, hK _ h1 ⟨s, h1, hsz, Or.inl rfl⟩⟩) h2 ih
      (List.mem_filter.mpr ⟨h4, hK _ h4 ⟨s, h1, hsz, Or.inr ⟨h5, ?_⟩⟩⟩) h5
    simp [RR.ty, h2, dsType]

theorem relevant_keep (hK : ∀ r ∈ inp, Relevant inp r → K r = true) {r : RR} (hr : Relevant inp r) : Relevant (inp.filter K) r := by
  obtain ⟨s, h1, h2, h3⟩ := hr
  exact ⟨s, List.mem_filter.mpr ⟨h1, hK _ h1 ⟨s, h1, h2, Or.inl rfl⟩⟩, delegated_keep hK h2, h3⟩

/-! ### Repeated signatures -/

theorem SameFor.of_repeated {inp inp' : List RR} (h : SameUpToRepeatedSigs inp inp') (h0 : NoSigsOverSigs inp) : SameFor inp inp' := by
  obtain ⟨h1, h2⟩ := h
  have hty : ∀ r : RR, r.ty = 46 → ∃ s, r = .rrsig s := by
    intro r hr
    cases r with
    | rrsig s => exact ⟨s, rfl⟩
    | _ => exact absurd hr (by simp [RR.ty]; decide)
  refine ⟨fun r => ?_, fun s hs => ?_, fun z => ?_⟩
  · by_cases hr : r.ty = 46
    · obtain ⟨s, rfl⟩ := hty r hr; exact h2 s
    · have := h1.mem_iff (a := r)
      simpa [hr] using this
  · have hs46 := h0 s hs
    have := h1.filter (fun r => r.name = s.name ∧ r.ty = s.ty)
    rw [List.filter_filter, List.filter_filter] at this
    have e : ∀ l : List RR, l.filter (fun r => decide (r.name = s.name ∧ r.ty = s.ty) && decide (r.ty ≠ 46)) = rrset l s.name s.ty := by
      intro l
      unfold rrset
      apply List.filter_congr
      intro r _
      by_cases hc : r.name = s.name ∧ r.ty = s.ty
      · simp [hc, hs46]
      · simp [hc]
    rwa [e, e] at this
  · have e : ∀ l : List RR, keysAt (l.filter (fun r => r.ty ≠ 46)) z = keysAt l z := by
      intro l
      apply filterMap_filter_keep
      intro x _ hf
      cases x with
      | rrsig s => exact absurd rfl hf
      | _ => simp [RR.ty, aType, aaaaType, nsType, txtType, tlsaType, cnameType, dnameType, dnskeyType, dsType, nsecType, nsec3Type]
    have := h1.filterMap (fun | .dnskey k => if k.name = z then some k else none | _ => none)
    rw [← e inp, ← e inp']
    exact this

end Dnssec
