import Verif.Model.Held
import Verif.Proofs.Once
import Verif.Proofs.Termination
import Verif.Spec.Held

/-! # Bounds on what is held -/

namespace Dnssec

open Spec

variable {dbg : Bool} {p : Platform} {inp : List RR}

theorem zoneStates_zero {zone : Bytes} {st : VState} : zoneStates dbg p inp 0 zone st = [st] := by
  rw [zoneStates]; split <;> rfl

theorem zoneStates_stop {zone : Bytes} {st : VState} (fuel : Nat) (hc : ¬ (zone = [dot] ∨ st.pending ≠ [])) :
    zoneStates dbg p inp fuel zone st = [st] := by
  cases fuel <;> rw [zoneStates, if_neg hc]

theorem zoneStates_succ {zone : Bytes} {st : VState} (fuel : Nat) (hc : zone = [dot] ∨ st.pending ≠ []) :
    zoneStates dbg p inp (fuel + 1) zone st =
      st :: (doZoneStates dbg p inp (nextZone zone st).1 (nextZone zone st).2.1 (nextZone zone st).2.2 ++
        (match doZone dbg p inp (nextZone zone st).1 (nextZone zone st).2.1 (nextZone zone st).2.2 with
          | .ok st1 => zoneStates dbg p inp fuel (nextZone zone st).1 st1
          | _ => [])) := by
  rw [zoneStates, if_pos hc]
  unfold nextZone
  cases hp : st.pending with
  | nil => rfl
  | cons e rest => rfl

theorem zoneLoop_next {zone : Bytes} {st : VState} (fuel : Nat) (hc : zone = [dot] ∨ st.pending ≠ []) :
    zoneLoop dbg p inp (fuel + 1) zone st =
      (match doZone dbg p inp (nextZone zone st).1 (nextZone zone st).2.1 (nextZone zone st).2.2 with
        | .ok st1 => zoneLoop dbg p inp fuel (nextZone zone st).1 st1
        | .err e => some (.err e)
        | .panic => some .panic) := by
  rw [zoneLoop, if_pos hc]
  unfold nextZone
  cases hp : st.pending with
  | nil => rfl
  | cons e rest => rfl

/-! ### The states are those of the run -/

theorem sigStates_last (zone : Bytes) : ∀ {sigs : List RRSig} {st st' : VState}, sigLoop dbg p inp zone sigs st = .ok st' →
    (sigStates dbg p inp zone sigs st).getLast? = some st'
  | [], st, st', h => by cases h; rfl
  | sig :: sigs, st, st', h => by
    rw [sigLoop] at h
    rw [sigStates]
    split at h
    · cases h
    · rename_i he
      rw [if_neg he]
      split at h
      · rename_i hv
        have := sigStates_last zone h
        simp only [hv, List.getLast?_cons, this, Option.getD_some]
      · cases h
      · cases h
      · rename_i hv
        obtain ⟨st1, h1, h2⟩ := Res.bind_ok_iff.mp h
        have := sigStates_last zone h2
        simp only [hv, h1, List.getLast?_cons, this, Option.getD_some]

theorem doZoneStates_last {zone : Bytes} {dses : List DS} {st st' : VState} (h : doZone dbg p inp zone dses st = .ok st') :
    (doZoneStates dbg p inp zone dses st).getLast? = some st' := by
  rw [doZone] at h
  obtain ⟨sig, h1, h2⟩ := Res.bind_ok_iff.mp h
  have := sigStates_last zone h2
  simp only [doZoneStates, h1, List.getLast?_cons, this, Option.getD_some]

theorem zoneStates_last : ∀ (fuel : Nat) {zone : Bytes} {st st' : VState}, zoneLoop dbg p inp fuel zone st = some (.ok st') →
    (zoneStates dbg p inp fuel zone st).getLast? = some st'
  | 0, zone, st, st', h => by
    rw [zoneLoop] at h
    split at h
    · cases h
    · cases h; rw [zoneStates_zero]; rfl
  | fuel + 1, zone, st, st', h => by
    by_cases hc : zone = [dot] ∨ st.pending ≠ []
    · rw [zoneLoop_next fuel hc] at h
      rw [zoneStates_succ fuel hc]
      split at h
      · rename_i st1 hd
        have := zoneStates_last fuel h
        simp [hd, List.getLast?_cons, List.getLast?_append, this]
      · cases h
      · cases h
    · rw [zoneLoop, if_neg hc] at h
      cases h
      rw [zoneStates_stop _ hc]; rfl

/-! ### Each follows from the one before -/

theorem Steps.cons_head {st st1 : VState} : ∀ {l : List VState}, l.head? = some st1 → HeldStep dbg inp st st1 → Steps dbg inp l →
    Steps dbg inp (st :: l)
  | [], h, _, _ => by cases h
  | x :: l, h, hs, hl => by cases h; exact ⟨hs, hl⟩

theorem Steps.append {st st1 : VState} {b : List VState} (hb : b.head? = some st1) (hs : HeldStep dbg inp st st1) (hbs : Steps dbg inp b) :
    ∀ {a : List VState}, Steps dbg inp a → a.getLast? = some st → Steps dbg inp (a ++ b)
  | [], _, h => by cases h
  | [x], _, h => by cases h; exact Steps.cons_head hb hs hbs
  | x :: y :: a, ha, h => by
    refine ⟨ha.1, Steps.append hb hs hbs ha.2 ?_⟩
    rw [List.getLast?_cons_cons] at h
    exact h

theorem sigStates_head (zone : Bytes) (sigs : List RRSig) (st : VState) : (sigStates dbg p inp zone sigs st).head? = some st := by
  cases sigs <;> rw [sigStates] <;> rfl

theorem zoneStates_head (fuel : Nat) (zone : Bytes) (st : VState) : (zoneStates dbg p inp fuel zone st).head? = some st := by
  cases fuel <;> rw [zoneStates] <;> rfl

theorem sigStates_steps (zone : Bytes) : ∀ {sigs : List RRSig} {st : VState}, (∀ s ∈ sigs, RR.rrsig s ∈ inp ∧ s.ty ≠ 48) →
    Steps dbg inp (sigStates dbg p inp zone sigs st)
  | [], st, _ => trivial
  | sig :: sigs, st, hs => by
    have hs' : ∀ s ∈ sigs, RR.rrsig s ∈ inp ∧ s.ty ≠ 48 := fun s h => hs s (List.mem_cons_of_mem _ h)
    rw [sigStates]
    split
    · trivial
    · split
      · exact Steps.cons_head (sigStates_head zone sigs st) (.none st) (sigStates_steps zone hs')
      · trivial
      · trivial
      · split
        · rename_i st1 ha
          obtain ⟨h1, h2⟩ := hs sig List.mem_cons_self
          exact Steps.cons_head (sigStates_head zone sigs st1) (.signature st st1 sig h1 h2 ha) (sigStates_steps zone hs')
        · trivial

theorem doZoneStates_steps (zone : Bytes) (dses : List DS) (st : VState) : Steps dbg inp (doZoneStates dbg p inp zone dses st) := by
  unfold doZoneStates
  split
  · rename_i sig h
    obtain ⟨_, pre, post, e, _⟩ := (verifyDnskeys_ok_iff _ _ _ _ _).mp h
    have hm : sig ∈ dnskeyRrsigs inp (⟨zone⟩ : Name).bytes := by
      change sig ∈ dnskeyRrsigs inp zone
      rw [e]; simp
    rw [dnskeyRrsigs_eq] at hm
    obtain ⟨h1, _, h2⟩ := mem_keySigs.mp hm
    refine Steps.cons_head (sigStates_head zone _ _) (.keys st sig h1 h2) (sigStates_steps zone fun s hs => ?_)
    have hs : s ∈ zoneRrsigs inp (⟨zone⟩ : Name).bytes := hs
    rw [zoneRrsigs_eq] at hs
    exact ⟨(mem_sigsBy.mp hs).1, (mem_sigsBy.mp hs).2.2⟩
  · trivial

theorem zoneStates_steps : ∀ (fuel : Nat) {zone : Bytes} {st : VState}, Steps dbg inp (zoneStates dbg p inp fuel zone st)
  | 0, zone, st => by rw [zoneStates_zero]; trivial
  | fuel + 1, zone, st => by
    by_cases hc : zone = [dot] ∨ st.pending ≠ []
    · rw [zoneStates_succ fuel hc]
      have hn : HeldStep dbg inp st (nextZone zone st).2.2 := by
        unfold nextZone
        split
        · rename_i z ds rest hp; exact .zone st (z, ds) rest hp
        · exact .none st
      refine Steps.cons_head (st1 := (nextZone zone st).2.2) rfl hn ?_
      split
      · rename_i st1 hd
        exact Steps.append (zoneStates_head fuel _ st1) (.none st1) (zoneStates_steps fuel) (doZoneStates_steps _ _ _) (doZoneStates_last hd)
      · rw [List.append_nil]; exact doZoneStates_steps _ _ _
    · rw [zoneStates_stop _ hc]; trivial

/-! ### An invariant of all states -/

/-- What is true of a state and stays true with every signature accepted and every zone taken is true of all that follow. -/
structure Kept (dbg : Bool) (inp : List RR) (Q : VState → Prop) : Prop where
  note : ∀ {st sig}, Q st → Q (st.note sig)
  accept : ∀ {sig st st'}, RR.rrsig sig ∈ inp → acceptSig dbg inp sig st = .ok st' → Q st → Q st'
  pop : ∀ {st e rest}, st.pending = e :: rest → Q st → Q { st with pending := rest }

theorem Kept.sigStates {Q : VState → Prop} (hQ : Kept dbg inp Q) (zone : Bytes) : ∀ {sigs : List RRSig} {st : VState},
    (∀ s ∈ sigs, RR.rrsig s ∈ inp) → Q st → ∀ st' ∈ sigStates dbg p inp zone sigs st, Q st'
  | [], st, _, h, st', hm => by rw [Dnssec.sigStates, List.mem_singleton] at hm; exact hm ▸ h
  | sig :: sigs, st, hs, h, st', hm => by
    have hs' : ∀ s ∈ sigs, RR.rrsig s ∈ inp := fun s h => hs s (List.mem_cons_of_mem _ h)
    rw [Dnssec.sigStates] at hm
    rcases List.mem_cons.mp hm with rfl | hm
    · exact h
    · split at hm
      · cases hm
      · split at hm
        · exact hQ.sigStates zone hs' h st' hm
        · cases hm
        · cases hm
        · split at hm
          · rename_i st1 ha
            exact hQ.sigStates zone hs' (hQ.accept (hs sig List.mem_cons_self) ha (hQ.note h)) st' hm
          · cases hm

theorem zoneRrsigs_mem {zone : Bytes} {s : RRSig} (h : s ∈ zoneRrsigs inp zone) : RR.rrsig s ∈ inp := by
  have h' : s ∈ zoneRrsigs inp (⟨zone⟩ : Name).bytes := h
  rw [zoneRrsigs_eq] at h'
  exact (mem_sigsBy.mp h').1

theorem Kept.doZoneStates {Q : VState → Prop} (hQ : Kept dbg inp Q) {zone : Bytes} {dses : List DS} {st : VState} (h : Q st) :
    ∀ st' ∈ doZoneStates dbg p inp zone dses st, Q st' := by
  intro st' hm
  rcases List.mem_cons.mp hm with rfl | hm
  · exact h
  · split at hm
    · exact hQ.sigStates zone (fun s hs => zoneRrsigs_mem hs) (hQ.note h) st' hm
    · cases hm

theorem Kept.next {Q : VState → Prop} (hQ : Kept dbg inp Q) {zone : Bytes} {st : VState} (h : Q st) : Q (nextZone zone st).2.2 := by
  unfold nextZone
  split
  · rename_i hp; exact hQ.pop hp h
  · exact h

theorem Kept.zoneStates {Q : VState → Prop} (hQ : Kept dbg inp Q) : ∀ (fuel : Nat) {zone : Bytes} {st : VState}, Q st →
    ∀ st' ∈ zoneStates dbg p inp fuel zone st, Q st'
  | 0, zone, st, h, st', hm => by rw [zoneStates_zero, List.mem_singleton] at hm; exact hm ▸ h
  | fuel + 1, zone, st, h, st', hm => by
    by_cases hc : zone = [dot] ∨ st.pending ≠ []
    · rw [zoneStates_succ fuel hc] at hm
      rcases List.mem_cons.mp hm with rfl | hm
      · exact h
      · have hn := hQ.next (zone := zone) h
        rcases List.mem_append.mp hm with hm | hm
        · exact hQ.doZoneStates hn st' hm
        · split at hm
          · rename_i st1 hd
            refine Kept.zoneStates hQ fuel ?_ st' hm
            exact hQ.doZoneStates hn st1 (List.mem_of_getLast? (doZoneStates_last hd))
          · cases hm
    · rw [zoneStates_stop _ hc, List.mem_singleton] at hm; exact hm ▸ h

/-! ### Records and zones -/

theorem pushAll_kept : ∀ (rs : List RR) {res : List RR}, res.Nodup → (∀ r ∈ res, r ∈ inp) → (∀ r ∈ rs, r ∈ inp) →
    (pushAll res rs).Nodup ∧ ∀ r ∈ pushAll res rs, r ∈ inp
  | [], res, h1, h2, _ => ⟨h1, h2⟩
  | r :: rs, res, h1, h2, h3 => by
    rw [pushAll]
    have h4 : ∀ r ∈ rs, r ∈ inp := fun x hx => h3 x (List.mem_cons_of_mem _ hx)
    split
    · exact pushAll_kept rs h1 h2 h4
    · rename_i hr
      refine pushAll_kept rs (List.nodup_append.mpr ⟨h1, by simp, ?_⟩) ?_ h4
      · intro a ha b hb e
        rw [List.mem_singleton] at hb
        exact hr (hb ▸ e ▸ ha)
      · intro x hx
        rcases List.mem_append.mp hx with hx | hx
        · exact h2 x hx
        · rw [List.mem_singleton] at hx; exact hx ▸ h3 r List.mem_cons_self

/-- No record and no zone is held twice; records are from the input, and zones have a signed DS set in it. -/
structure Distinct (inp : List RR) (st : VState) : Prop where
  res : st.res.Nodup
  resIn : ∀ r ∈ st.res, r ∈ inp
  zones : (st.pending.map Prod.fst).Nodup
  zonesIn : ∀ z ∈ st.pending.map Prod.fst, z ∈ dsOwners inp

theorem coveredRecords_mem {sig : RRSig} {r : RR} (h : r ∈ coveredRecords inp sig) : r ∈ inp := (List.mem_filter.mp h).1

theorem Distinct.kept : Kept dbg inp (Distinct inp) where
  note h := ⟨h.res, h.resIn, h.zones, h.zonesIn⟩
  pop {st e rest} hp h := by
    refine ⟨h.res, h.resIn, ?_, ?_⟩
    · have := h.zones; rw [hp] at this; exact (List.nodup_cons.mp this).2
    · intro z hz; exact h.zonesIn z (by rw [hp]; exact List.mem_cons_of_mem _ hz)
  accept {sig st st'} hs ha h := by
    have hnd := acceptSig_nodup ha h.zones
    have hpush : ∀ st1 : VState, st1.res = st.res → (pushAll st1.res (coveredRecords inp sig)).Nodup ∧
        ∀ r ∈ pushAll st1.res (coveredRecords inp sig), r ∈ inp := by
      intro st1 e
      rw [e]
      exact pushAll_kept _ h.res h.resIn fun r hr => coveredRecords_mem hr
    unfold acceptSig at ha
    split at ha
    · cases ha
    · split at ha
      · rename_i hty
        split at ha
        · cases ha; exact h
        · cases ha
          refine ⟨h.res, h.resIn, hnd, ?_⟩
          intro z hz
          rcases List.mem_cons.mp hz with rfl | hz
          · exact mem_dsOwners hs hty
          · exact h.zonesIn z hz
      · simp only at ha
        split at ha
        · split at ha
          · cases ha
          · obtain ⟨l1, _, ha⟩ := Res.bind_ok_iff.mp ha
            split at ha
            · cases ha
            · cases ha
              exact ⟨(hpush _ rfl).1, (hpush _ rfl).2, h.zones, h.zonesIn⟩
        · cases ha
          exact ⟨(hpush _ rfl).1, (hpush _ rfl).2, h.zones, h.zonesIn⟩

theorem Distinct.init : Distinct inp VState.init := by constructor <;> simp [VState.init]

theorem nodup_length_le' {α : Type} [DecidableEq α] {a : List α} : ∀ {b : List α}, a.Nodup → (∀ x ∈ a, x ∈ b) → a.length ≤ b.length := by
  induction a with
  | nil => intros; exact Nat.zero_le _
  | cons x a ih =>
    intro b ha h
    obtain ⟨h1, h2⟩ := List.nodup_cons.mp ha
    have hx := h x List.mem_cons_self
    have := ih (b := b.erase x) h2 fun y hy => (List.mem_erase_of_ne (by rintro rfl; exact h1 hy)).mpr (h y (List.mem_cons_of_mem _ hy))
    rw [List.length_erase_of_mem hx] at this
    have : 0 < b.length := List.length_pos_of_mem hx
    simp only [List.length_cons]
    omega

/-! ### Denials to be looked for -/

theorem sigStates_needs (zone : Bytes) : ∀ {sigs : List RRSig} {st : VState}, ∀ st' ∈ sigStates dbg p inp zone sigs st,
    st'.needs.length ≤ st.needs.length + sigs.length
  | [], st, st', hm => by rw [sigStates, List.mem_singleton] at hm; subst hm; exact Nat.le_refl _
  | sig :: sigs, st, st', hm => by
    rw [sigStates] at hm
    simp only [List.length_cons]
    rcases List.mem_cons.mp hm with rfl | hm
    · exact Nat.le_add_right _ _
    · split at hm
      · cases hm
      · split at hm
        · have := sigStates_needs zone st' hm; omega
        · cases hm
        · cases hm
        · split at hm
          · rename_i st1 ha
            have h1 := acceptSig_needs ha
            have h1 : st1.needs.length ≤ st.needs.length + 1 := h1
            have := sigStates_needs zone st' hm
            omega
          · cases hm

theorem doZoneStates_needs {zone : Bytes} {dses : List DS} {st : VState} : ∀ st' ∈ doZoneStates dbg p inp zone dses st,
    st'.needs.length ≤ st.needs.length + (zoneRrsigs inp zone).length := by
  intro st' hm
  rcases List.mem_cons.mp hm with rfl | hm
  · exact Nat.le_add_right _ _
  · split at hm
    · rename_i sig _
      have h : st'.needs.length ≤ (st.note sig).needs.length + _ := sigStates_needs zone st' hm
      exact h
    · cases hm

theorem sigsBy_sigsIn (z : Name) : ∀ inp : List RR, (sigsBy inp z).length ≤ (sigsIn inp (fun y => y = z)).length
  | [] => Nat.le_refl _
  | r :: inp => by
    have ih := sigsBy_sigsIn z inp
    cases r with
    | rrsig s =>
      have e1 : sigsBy (.rrsig s :: inp) z = if s.keyName = z ∧ s.ty ≠ 48 then s :: sigsBy inp z else sigsBy inp z := by
        unfold sigsBy
        rw [List.filterMap_cons]
        simp only
        by_cases h : s.keyName = z ∧ s.ty ≠ 48
        · rw [if_pos h, if_pos h]
        · rw [if_neg h, if_neg h]
      have e2 : sigsIn (.rrsig s :: inp) (fun y => y = z) =
          if zoneOf s = z then s :: sigsIn inp (fun y => y = z) else sigsIn inp (fun y => y = z) := by
        unfold sigsIn rrsigs
        rw [List.filterMap_cons]
        simp only
        rw [List.filter_cons]
        simp only [decide_eq_true_eq]
      rw [e1, e2]
      by_cases h : s.keyName = z ∧ s.ty ≠ 48
      · rw [if_pos h, if_pos (by simp [zoneOf, h.1, h.2]), List.length_cons, List.length_cons]
        omega
      · rw [if_neg h]
        split
        · rw [List.length_cons]; omega
        · exact ih
    | _ => exact ih

theorem zoneStates_once (hroot : RootDelegates (codeCheck p) inp) (hno : ¬ SelfDelegation (codeCheck p) p inp)
    (hone : OneParent (codeCheck p) p inp) : ∀ (fuel : Nat) {zone : Bytes} {st : VState} {P : List Name}, Tree dbg p inp P zone st →
    ∀ st' ∈ zoneStates dbg p inp fuel zone st, st'.needs.length ≤ st.needs.length + (sigsIn inp (fun y => y ∉ P)).length
  | 0, zone, st, P, hT, st', hm => by
    rw [zoneStates_zero, List.mem_singleton] at hm; subst hm; exact Nat.le_add_right _ _
  | fuel + 1, zone, st, P, hT, st', hm => by
    by_cases hc : zone = [dot] ∨ st.pending ≠ []
    · obtain ⟨z, e1, hzP, hz, hds, hn, hnext⟩ := hT.next hroot hno hone hc
      rw [zoneStates_succ fuel hc, e1] at hm
      have hsplit : ∀ a : Name, decide (a ∉ P) = (decide (a = z) || decide (a ∉ z :: P)) := by
        intro a
        by_cases h : a = z
        · subst h; simp [hzP]
        · simp [h]
      have hdis : ∀ a : Name, decide (a = z) = true → decide (a ∉ z :: P) = false := by
        intro a h; simp at h; simp [h]
      have hsp := filter_split (fun s => decide (zoneOf s = z)) (fun s => decide (zoneOf s ∉ z :: P)) (fun s => decide (zoneOf s ∉ P))
          (fun s => hsplit _) (fun s => hdis _) (rrsigs inp)
      have hz1 : (zoneRrsigs inp z.bytes).length ≤ (sigsIn inp (fun y => y = z)).length := by rw [zoneRrsigs_eq]; exact sigsBy_sigsIn z inp
      rcases List.mem_cons.mp hm with rfl | hm
      · exact Nat.le_add_right _ _
      · rcases List.mem_append.mp hm with hm | hm
        · have := doZoneStates_needs st' hm
          rw [hn] at this
          simp only [sigsIn] at *
          omega
        · split at hm
          · rename_i st1 hd
            have h1 := doZoneStates_needs st1 (List.mem_of_getLast? (doZoneStates_last hd))
            have h2 := zoneStates_once hroot hno hone fuel (hnext st1 hd) st' hm
            rw [hn] at h1
            simp only [sigsIn] at *
            omega
          · cases hm
    · rw [zoneStates_stop _ hc, List.mem_singleton] at hm; subst hm; exact Nat.le_add_right _ _

theorem sigsIn_le (q : Name → Bool) : (sigsIn inp q).length ≤ sigCount inp := by
  unfold sigsIn
  rw [← rrsigs_length]
  exact List.length_filter_le _ _

theorem zoneStates_each : ∀ (fuel : Nat) {zone : Bytes} {st : VState}, ∀ st' ∈ zoneStates dbg p inp fuel zone st,
    st'.needs.length ≤ st.needs.length + fuel * sigCount inp
  | 0, zone, st, st', hm => by rw [zoneStates_zero, List.mem_singleton] at hm; subst hm; exact Nat.le_add_right _ _
  | fuel + 1, zone, st, st', hm => by
    by_cases hc : zone = [dot] ∨ st.pending ≠ []
    · rw [zoneStates_succ fuel hc] at hm
      have hn : (nextZone zone st).2.2.needs = st.needs := by unfold nextZone; split <;> rfl
      have hz1 : (zoneRrsigs inp (nextZone zone st).1).length ≤ sigCount inp := by
        have h := sigsBy_sigsIn ⟨(nextZone zone st).1⟩ inp
        rw [← zoneRrsigs_eq] at h
        exact Nat.le_trans h (sigsIn_le _)
      rw [Nat.add_mul]
      rcases List.mem_cons.mp hm with rfl | hm
      · exact Nat.le_add_right _ _
      · rcases List.mem_append.mp hm with hm | hm
        · have := doZoneStates_needs st' hm
          rw [hn] at this
          omega
        · split at hm
          · rename_i st1 hd
            have h1 := doZoneStates_needs st1 (List.mem_of_getLast? (doZoneStates_last hd))
            have h2 := zoneStates_each fuel st' hm
            rw [hn] at h1
            omega
          · cases hm
    · rw [zoneStates_stop _ hc, List.mem_singleton] at hm; subst hm; exact Nat.le_add_right _ _

end Dnssec
