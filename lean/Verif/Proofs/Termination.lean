import Verif.Proofs.ZoneLoop
import Verif.Proofs.Suffix

/-! # When the zone loop ends -/

namespace Dnssec

open Spec

variable {dbg : Bool} {p : Platform} {inp : List RR}

/-- What one pass over the signatures of a zone adds to the stack. -/
theorem sigLoop_pending {z : Name} : ∀ {sigs : List RRSig} {st st' : VState},
    sigLoop dbg p inp z.bytes sigs st = .ok st' →
    ∃ new, st'.pending = new ++ st.pending ∧ new.length ≤ sigs.length ∧
      ∀ e ∈ new, ∃ s ∈ sigs, verifyRrsig p s (keysAt inp z) (rrset inp s.name s.ty) = .ok () ∧ s.ty = dsType ∧
        e = (s.name, dsAt inp s.name)
  | [], st, st', h => by
    simp only [sigLoop, Res.ok.injEq] at h; subst h
    exact ⟨[], rfl, by simp, by simp⟩
  | s :: sigs, st, st', h => by
    rw [sigLoop] at h
    by_cases hz : endsWith s.name.bytes z.bytes = true
    · rw [if_neg (by simp [hz]), zoneKeys_eq, coveredRecords_eq] at h
      cases hv : verifyRrsig p s (keysAt inp z) (rrset inp s.name s.ty) with
      | panic => rw [hv] at h; simp at h
      | err e =>
        rw [hv] at h
        cases e with
        | invalid => simp at h
        | unsupported =>
          simp only at h
          obtain ⟨new, i1, i2, i3⟩ := sigLoop_pending h
          exact ⟨new, i1, by simp; omega, fun e he => by
            obtain ⟨t, a, b⟩ := i3 e he; exact ⟨t, by simp [a], b⟩⟩
      | ok u =>
        cases u
        rw [hv] at h
        simp only at h
        cases ha : acceptSig dbg inp s (st.note s) with
        | err e => rw [ha] at h; simp [Res.bind] at h
        | panic => rw [ha] at h; simp [Res.bind] at h
        | ok st1 =>
          rw [ha] at h
          simp only [Res.bind] at h
          obtain ⟨_, _, _, _, _, _, _, a8⟩ := acceptSig_ok ha
          obtain ⟨new, i1, i2, i3⟩ := sigLoop_pending h
          have i3' : ∀ e ∈ new, ∃ t ∈ s :: sigs, verifyRrsig p t (keysAt inp z) (rrset inp t.name t.ty) = .ok () ∧
              t.ty = dsType ∧ e = (t.name, dsAt inp t.name) := fun e he => by
            obtain ⟨t, a, b⟩ := i3 e he; exact ⟨t, by simp [a], b⟩
          rcases a8 with ⟨q, _⟩ | ⟨q1, q⟩
          · exact ⟨new, by rw [i1, q]; rfl, by simp; omega, i3'⟩
          · refine ⟨new ++ [(s.name, dsAt inp s.name)], by rw [i1, q]; simp; rfl, by simp; omega, ?_⟩
            intro e he
            rcases List.mem_append.mp he with he | he
            · exact i3' e he
            · rw [List.mem_singleton] at he
              exact ⟨s, by simp, hv, q1, he⟩
    · rw [if_pos (by simpa using hz)] at h; simp at h

theorem sigLoop_suffix {z : Name} {sigs : List RRSig} {st st' : VState} (h : sigLoop dbg p inp z.bytes sigs st = .ok st') :
    ∀ s ∈ sigs, endsWith s.name.bytes z.bytes = true := by
  induction sigs generalizing st with
  | nil => simp
  | cons s sigs ih =>
    rw [sigLoop] at h
    by_cases hz : endsWith s.name.bytes z.bytes = true
    · rw [if_neg (by simp [hz]), zoneKeys_eq, coveredRecords_eq] at h
      intro t ht
      rcases List.mem_cons.mp ht with rfl | ht
      · exact hz
      cases hv : verifyRrsig p s (keysAt inp z) (rrset inp s.name s.ty) with
      | panic => rw [hv] at h; simp at h
      | err e =>
        rw [hv] at h
        cases e with
        | invalid => simp at h
        | unsupported => exact ih h t ht
      | ok u =>
        rw [hv] at h
        simp only at h
        cases ha : acceptSig dbg inp s (st.note s) with
        | err e => rw [ha] at h; simp [Res.bind] at h
        | panic => rw [ha] at h; simp [Res.bind] at h
        | ok st1 => rw [ha] at h; exact ih h t ht
    · rw [if_pos (by simpa using hz)] at h; simp at h

theorem sigLoop_pushes {z : Name} {sigs : List RRSig} {st st' : VState} (h : sigLoop dbg p inp z.bytes sigs st = .ok st') :
    ∀ s ∈ sigs, verifyRrsig p s (keysAt inp z) (rrset inp s.name s.ty) = .ok () → s.ty = dsType →
      ∃ e ∈ st'.pending, e.1 = s.name := by
  induction sigs generalizing st with
  | nil => simp
  | cons s sigs ih =>
    rw [sigLoop] at h
    by_cases hz : endsWith s.name.bytes z.bytes = true
    · rw [if_neg (by simp [hz]), zoneKeys_eq, coveredRecords_eq] at h
      intro t ht hg hd
      cases hv : verifyRrsig p s (keysAt inp z) (rrset inp s.name s.ty) with
      | panic => rw [hv] at h; simp at h
      | err e =>
        rw [hv] at h
        cases e with
        | invalid => simp at h
        | unsupported =>
          rcases List.mem_cons.mp ht with rfl | ht
          · rw [hv] at hg; simp at hg
          · exact ih h t ht hg hd
      | ok u =>
        rw [hv] at h
        simp only at h
        cases ha : acceptSig dbg inp s (st.note s) with
        | err e => rw [ha] at h; simp [Res.bind] at h
        | panic => rw [ha] at h; simp [Res.bind] at h
        | ok st1 =>
          rw [ha] at h
          simp only [Res.bind] at h
          rcases List.mem_cons.mp ht with rfl | ht
          · obtain ⟨new, i1, _, _⟩ := sigLoop_pending h
            obtain ⟨_, _, _, _, _, _, _, a8⟩ := acceptSig_ok ha
            rcases a8 with ⟨q, q2⟩ | ⟨_, q⟩
            · obtain ⟨e, he, e2⟩ := q2 hd
              exact ⟨e, by rw [i1, q]; exact List.mem_append_right _ he, e2⟩
            · exact ⟨_, by rw [i1, q]; exact List.mem_append_right _ List.mem_cons_self, rfl⟩
          · exact ih h t ht hg hd
    · rw [if_pos (by simpa using hz)] at h; simp at h

/-- One zone: its keys are authenticated and what it adds to the stack are delegations it signed, to longer or equal names. -/
theorem doZone_pending {z : Name} {dses : List DS} {st st' : VState} (hds : z ≠ rootName → dses = dsAt inp z)
    (h : doZone dbg p inp z.bytes dses st = .ok st') :
    (∃ ksig, ZoneKeysOk (codeCheck p) p inp z ksig) ∧
    ∃ new, st'.pending = new ++ st.pending ∧ new.length ≤ (sigsBy inp z).length ∧
      (∀ e ∈ new, ∃ s, SignedBy (codeCheck p) inp z s ∧ s.ty = dsType ∧ e = (s.name, dsAt inp s.name) ∧
        endsWith s.name.bytes z.bytes = true) ∧
      (∀ s, SignedBy (codeCheck p) inp z s → s.ty = dsType → ∃ e ∈ st'.pending, e.1 = s.name) := by
  rw [doZone_eq _ _ _ _ _ _ hds] at h
  cases hk : verifyDnskeys p (keySigs inp z) (anchors inp z) (keysAt inp z) with
  | err e => rw [hk] at h; simp [Res.bind] at h
  | panic => rw [hk] at h; simp [Res.bind] at h
  | ok ksig =>
    rw [hk] at h
    simp only [Res.bind] at h
    refine ⟨⟨ksig, (verifyDnskeys_ok_iff _ _ _ _ _).mp hk⟩, ?_⟩
    obtain ⟨new, i1, i2, i3⟩ := sigLoop_pending h
    have hsuf : ∀ s ∈ sigsBy inp z, endsWith s.name.bytes z.bytes = true := sigLoop_suffix h
    refine ⟨new, i1, i2, ?_, ?_⟩
    · intro e he
      obtain ⟨s, a, b, c, d⟩ := i3 e he
      exact ⟨s, ⟨a, b⟩, c, d, hsuf s a⟩
    · intro s hs ht
      exact sigLoop_pushes h s hs.1 hs.2 ht

/-! ### Termination -/

/-- Weight of the stack: a zone counts `(N+1)^(L - length)`. -/
def weight (N L : Nat) : List (Name × List DS) → Nat
  | [] => 0
  | e :: es => (N + 1) ^ (L - e.1.bytes.length) + weight N L es

theorem weight_append (N L : Nat) (a b : List (Name × List DS)) : weight N L (a ++ b) = weight N L a + weight N L b := by
  induction a with
  | nil => simp [weight]
  | cons e es ih => simp only [List.cons_append, weight, ih]; omega

theorem weight_le (N L l : Nat) (a : List (Name × List DS)) (h : ∀ e ∈ a, l < e.1.bytes.length ∧ e.1.bytes.length ≤ L) :
    weight N L a ≤ a.length * (N + 1) ^ (L - l - 1) := by
  induction a with
  | nil => simp [weight]
  | cons e es ih =>
    simp only [weight, List.length_cons]
    have h1 := ih (fun e he => h e (List.mem_cons_of_mem _ he))
    have h2 := h e (by simp)
    have h3 : (N + 1) ^ (L - e.1.bytes.length) ≤ (N + 1) ^ (L - l - 1) := Nat.pow_le_pow_right (by omega) (by omega)
    rw [Nat.add_mul]
    omega

theorem weight_step (N L l : Nat) (new : List (Name × List DS)) (hn : new.length ≤ N)
    (h : ∀ e ∈ new, l < e.1.bytes.length ∧ e.1.bytes.length ≤ L) : weight N L new < (N + 1) ^ (L - l) := by
  have h1 := weight_le N L l new h
  have hpos : ∀ k, 0 < (N + 1) ^ k := fun k => Nat.pow_pos (by omega)
  cases new with
  | nil => simpa [weight] using hpos _
  | cons e es =>
    have h2 := h e (by simp)
    have h3 : L - l = (L - l - 1) + 1 := by omega
    rw [h3, Nat.pow_succ]
    have h4 : (e :: es).length * (N + 1) ^ (L - l - 1) ≤ N * (N + 1) ^ (L - l - 1) := Nat.mul_le_mul_right _ hn
    have h5 : (N + 1) ^ (L - l - 1) * (N + 1) = N * (N + 1) ^ (L - l - 1) + (N + 1) ^ (L - l - 1) := by
      rw [Nat.mul_comm, Nat.add_mul, Nat.one_mul]
    have := hpos (L - l - 1)
    omega

theorem sigsBy_length (inp : List RR) (z : Name) : (sigsBy inp z).length ≤ inp.length := by
  unfold sigsBy
  exact List.length_filterMap_le _ _

/-- A suffix that is not the whole is shorter. -/
theorem length_of_endsWith {a z : Name} (h : endsWith a.bytes z.bytes = true) (hne : a ≠ z) :
    z.bytes.length < a.bytes.length := by
  obtain ⟨pre, e⟩ := (endsWith_iff _ _).mp h
  cases pre with
  | nil => exact absurd ((Name.ext_iff' _ _).mp e) hne
  | cons x xs => rw [e]; simp; omega

theorem new_bounds {L : Nat} (hL : ∀ s, RR.rrsig s ∈ inp → s.name.bytes.length ≤ L) {z : Name}
    (hno : ∀ s, SignedBy (codeCheck p) inp z s → s.ty = dsType → s.name ≠ z) {new : List (Name × List DS)}
    (h : ∀ e ∈ new, ∃ s, SignedBy (codeCheck p) inp z s ∧ s.ty = dsType ∧ e = (s.name, dsAt inp s.name) ∧
        endsWith s.name.bytes z.bytes = true) :
    ∀ e ∈ new, z.bytes.length < e.1.bytes.length ∧ e.1.bytes.length ≤ L := by
  intro e he
  obtain ⟨s, a, b, rfl, d⟩ := h e he
  exact ⟨length_of_endsWith d (hno s a b), hL s (mem_sigsBy.mp a.1).1⟩

theorem zoneLoop_terminates {L : Nat} (hL : ∀ s, RR.rrsig s ∈ inp → s.name.bytes.length ≤ L)
    (hroot : ∃ s, SignedBy (codeCheck p) inp rootName s ∧ s.ty = dsType)
    (hno : ∀ z, Reached (codeCheck p) p inp z → ∀ s, SignedBy (codeCheck p) inp z s → s.ty = dsType → s.name ≠ z) :
    ∀ (fuel : Nat) (zone : Bytes) (st : VState), (∀ e ∈ st.pending, Reached (codeCheck p) p inp e.1 ∧ e.2 = dsAt inp e.1) →
      (zone ≠ [dot] ∨ st.pending ≠ []) → weight inp.length L st.pending ≤ fuel → zoneLoop dbg p inp fuel zone st ≠ none := by
  intro fuel
  induction fuel with
  | zero =>
    intro zone st _ h2 h3
    have hp : st.pending = [] := by
      cases hp : st.pending with
      | nil => rfl
      | cons e es =>
        rw [hp, weight] at h3
        have : 0 < (inp.length + 1) ^ (L - e.1.bytes.length) := Nat.pow_pos (by omega)
        omega
    have hz : zone ≠ [dot] := by
      rcases h2 with h2 | h2
      · exact h2
      · exact absurd hp h2
    rw [zoneLoop, if_neg (by simp [hz, hp])]
    simp
  | succ fuel ih =>
    intro zone st h1 h2 h3
    cases hp : st.pending with
    | nil =>
      have hz : zone ≠ [dot] := by
        rcases h2 with h2 | h2
        · exact h2
        · exact absurd hp h2
      rw [zoneLoop, if_neg (by simp [hz, hp])]
      simp
    | cons e rest =>
      obtain ⟨z, ds⟩ := e
      rw [zoneLoop, if_pos (by simp [hp]), hp]
      simp only
      obtain ⟨g1, g2⟩ := h1 (z, ds) (by rw [hp]; simp)
      cases hd : doZone dbg p inp z.bytes ds { st with pending := rest } with
      | err e => simp
      | panic => simp
      | ok st1 =>
        simp only
        obtain ⟨⟨ksig, hk⟩, new, i1, i2, i3, i4⟩ := doZone_pending (fun _ => g2) hd
        apply ih
        · intro e he
          rw [i1] at he
          rcases List.mem_append.mp he with he | he
          · obtain ⟨s, a, b, rfl, _⟩ := i3 e he
            exact ⟨.delegated z ksig s g1 hk a b, rfl⟩
          · exact h1 e (by rw [hp]; exact List.mem_cons_of_mem _ he)
        · by_cases hz : z.bytes = [dot]
          · have hz' : z = rootName := (Name.ext_iff' _ _).mp hz
            obtain ⟨s, a, b⟩ := hroot
            obtain ⟨e, he, _⟩ := i4 s (hz' ▸ a) b
            exact Or.inr (List.ne_nil_of_mem he)
          · exact Or.inl hz
        · rw [i1, weight_append]
          have hw := weight_step inp.length L z.bytes.length new (Nat.le_trans i2 (sigsBy_length inp z))
            (new_bounds hL (hno z g1) i3)
          rw [hp, weight] at h3
          simp only at h3 ⊢
          omega

theorem verifyRRStream_terminates {L : Nat} (hL : ∀ s, RR.rrsig s ∈ inp → s.name.bytes.length ≤ L)
    (hroot : ∃ s, SignedBy (codeCheck p) inp rootName s ∧ s.ty = dsType)
    (hno : ∀ z, Reached (codeCheck p) p inp z → ∀ s, SignedBy (codeCheck p) inp z s → s.ty = dsType → s.name ≠ z)
    (fuel : Nat) (hf : (inp.length + 1) ^ L ≤ fuel) : verifyRRStream dbg p fuel inp ≠ none := by
  have key : zoneLoop dbg p inp fuel [dot] VState.init ≠ none := by
    have hpos : 0 < (inp.length + 1) ^ L := Nat.pow_pos (by omega)
    obtain ⟨fuel, rfl⟩ : ∃ k, fuel = k + 1 := ⟨fuel - 1, by omega⟩
    rw [zoneLoop, if_pos (Or.inl rfl)]
    simp only [VState.init]
    change (match doZone dbg p inp rootName.bytes [] VState.init with
      | .ok st => zoneLoop dbg p inp fuel rootName.bytes st
      | .err e => some (.err e)
      | .panic => some .panic) ≠ none
    cases hd : doZone dbg p inp rootName.bytes [] VState.init with
    | err e => simp
    | panic => simp
    | ok st1 =>
      simp only
      obtain ⟨⟨ksig, hk⟩, new, i1, i2, i3, i4⟩ := doZone_pending (fun h => absurd rfl h) hd
      have i1' : st1.pending = new := by rw [i1]; simp [VState.init]
      apply zoneLoop_terminates hL hroot hno
      · intro e he
        rw [i1'] at he
        obtain ⟨s, a, b, rfl, _⟩ := i3 e he
        exact ⟨.delegated rootName ksig s .root hk a b, rfl⟩
      · obtain ⟨s, a, b⟩ := hroot
        obtain ⟨e, he, _⟩ := i4 s a b
        exact Or.inr (List.ne_nil_of_mem he)
      · have hw := weight_step inp.length L rootName.bytes.length new (Nat.le_trans i2 (sigsBy_length inp rootName))
            (new_bounds hL (hno rootName .root) i3)
        rw [i1']
        have : (inp.length + 1) ^ (L - rootName.bytes.length) ≤ (inp.length + 1) ^ L :=
          Nat.pow_le_pow_right (by omega) (by omega)
        omega
  unfold verifyRRStream
  cases hz : zoneLoop dbg p inp fuel [dot] VState.init with
  | none => exact absurd hz key
  | some r => cases r <;> simp

/-! ### Non-termination -/

/-- All zones reached are in order: nothing in them makes verification fail. -/
def Clean (dbg : Bool) (p : Platform) (inp : List RR) : Prop :=
  ∀ z, Reached (codeCheck p) p inp z → (∃ ksig, ZoneKeysOk (codeCheck p) p inp z ksig) ∧
    ∀ s ∈ sigsBy inp z, endsWith s.name.bytes z.bytes = true ∧
      ((codeCheck p).unsupported s (keysAt inp z) (rrset inp s.name s.ty) ∨ SignedBy (codeCheck p) inp z s ∧ Acceptable dbg s)

theorem acceptSig_of_acceptable {sig : RRSig} (h : Acceptable dbg sig) (st : VState) :
    ∃ st', acceptSig dbg inp sig st = .ok st' := by
  obtain ⟨h1, h2, h3⟩ := h
  unfold acceptSig
  rw [if_neg (by simp [h1, h2])]
  by_cases hd : sig.ty = dsType
  · rw [if_pos hd]
    split <;> exact ⟨_, rfl⟩
  · rw [if_neg hd]
    by_cases hx : Expanded sig
    · obtain ⟨g1, g2, g3⟩ := h3 hd hx
      simp only
      rw [if_pos (show sig.labels ≠ sig.name.labels ∧ sig.ty ≠ nsecType from hx), if_neg g1]
      unfold labelsPlusOne
      rw [if_neg (by
        intro h
        simp only [Bool.and_eq_true, beq_iff_eq] at h
        exact g2 h.1 h.2)]
      simp only [Res.bind]
      have hs := (trailingNLabels_isSome sig.name (sig.labels + 1)).mpr g3
      obtain ⟨nm, hnm⟩ := Option.isSome_iff_exists.mp hs
      rw [hnm]
      exact ⟨_, rfl⟩
    · simp only
      rw [if_neg (show ¬ (sig.labels ≠ sig.name.labels ∧ sig.ty ≠ nsecType) from hx)]
      exact ⟨_, rfl⟩

theorem sigLoop_clean {z : Name} : ∀ (sigs : List RRSig) (st : VState),
    (∀ s ∈ sigs, endsWith s.name.bytes z.bytes = true ∧
      (verifyRrsig p s (keysAt inp z) (rrset inp s.name s.ty) = .err .unsupported ∨
       verifyRrsig p s (keysAt inp z) (rrset inp s.name s.ty) = .ok () ∧ Acceptable dbg s)) →
    ∃ st', sigLoop dbg p inp z.bytes sigs st = .ok st'
  | [], st, _ => ⟨st, rfl⟩
  | s :: sigs, st, h => by
    obtain ⟨a, b⟩ := h s (by simp)
    have h' := fun t ht => h t (List.mem_cons_of_mem s ht)
    rw [sigLoop, if_neg (by simp [a]), zoneKeys_eq, coveredRecords_eq]
    rcases b with b | ⟨b, c⟩
    · rw [b]; exact sigLoop_clean sigs st h'
    · rw [b]
      simp only
      obtain ⟨st1, h1⟩ := acceptSig_of_acceptable c (st.note s)
      rw [h1]
      exact sigLoop_clean sigs st1 h'

theorem doZone_clean {z : Name} {dses : List DS} (hds : z ≠ rootName → dses = dsAt inp z) (hc : Clean dbg p inp)
    (hz : Reached (codeCheck p) p inp z) (st : VState) : ∃ st', doZone dbg p inp z.bytes dses st = .ok st' := by
  rw [doZone_eq _ _ _ _ _ _ hds]
  obtain ⟨⟨ksig, hk⟩, hs⟩ := hc z hz
  rw [(verifyDnskeys_ok_iff _ _ _ _ _).mpr hk]
  apply sigLoop_clean
  intro s h
  obtain ⟨a, b⟩ := hs s h
  refine ⟨a, ?_⟩
  rcases b with b | ⟨b, c⟩
  · exact Or.inl b
  · exact Or.inr ⟨b.2, c⟩

theorem zoneLoop_clean (hc : Clean dbg p inp) : ∀ (fuel : Nat) (zone : Bytes) (st : VState),
    (∀ e ∈ st.pending, Reached (codeCheck p) p inp e.1 ∧ e.2 = dsAt inp e.1) →
    zoneLoop dbg p inp fuel zone st = none ∨ ∃ st', zoneLoop dbg p inp fuel zone st = some (.ok st') := by
  intro fuel
  induction fuel with
  | zero =>
    intro zone st _
    rw [zoneLoop]
    by_cases h : zone = [dot] ∨ st.pending ≠ []
    · rw [if_pos h]; exact Or.inl rfl
    · rw [if_neg h]; exact Or.inr ⟨_, rfl⟩
  | succ fuel ih =>
    intro zone st h1
    rw [zoneLoop]
    by_cases h : zone = [dot] ∨ st.pending ≠ []
    · rw [if_pos h]
      cases hp : st.pending with
      | nil =>
        have hz : zone = rootName.bytes := by
          rcases h with h | h
          · exact h
          · exact absurd hp h
        subst hz
        simp only
        obtain ⟨st1, hd⟩ := doZone_clean (dses := []) (fun h => absurd rfl h) hc .root st
        rw [hd]
        simp only
        obtain ⟨⟨ksig, hk⟩, new, i1, i2, i3, i4⟩ := doZone_pending (fun h => absurd rfl h) hd
        apply ih
        intro e he
        rw [i1, hp, List.append_nil] at he
        obtain ⟨s, a, b, rfl, _⟩ := i3 e he
        exact ⟨.delegated rootName ksig s .root hk a b, rfl⟩
      | cons e rest =>
        obtain ⟨z, ds⟩ := e
        simp only
        obtain ⟨g1, g2⟩ := h1 (z, ds) (by rw [hp]; simp)
        obtain ⟨st1, hd⟩ := doZone_clean (fun _ => g2) hc g1 { st with pending := rest }
        rw [hd]
        simp only
        obtain ⟨⟨ksig, hk⟩, new, i1, i2, i3, i4⟩ := doZone_pending (fun _ => g2) hd
        apply ih
        intro e he
        rw [i1] at he
        rcases List.mem_append.mp he with he | he
        · obtain ⟨s, a, b, rfl, _⟩ := i3 e he
          exact ⟨.delegated z ksig s g1 hk a b, rfl⟩
        · exact h1 e (by rw [hp]; exact List.mem_cons_of_mem _ he)
    · rw [if_neg h]; exact Or.inr ⟨_, rfl⟩

/-- If the root signs no DS set, the loop never ends successfully. -/
theorem zoneLoop_root_only (hroot : ¬ ∃ s, SignedBy (codeCheck p) inp rootName s ∧ s.ty = dsType) :
    ∀ (fuel : Nat) (st st' : VState), st.pending = [] → zoneLoop dbg p inp fuel rootName.bytes st ≠ some (.ok st') := by
  intro fuel
  induction fuel with
  | zero =>
    intro st st' _ h
    rw [zoneLoop, if_pos (show rootName.bytes = [dot] ∨ _ from Or.inl rfl)] at h
    simp at h
  | succ fuel ih =>
    intro st st' hp h
    rw [zoneLoop, if_pos (show rootName.bytes = [dot] ∨ _ from Or.inl rfl), hp] at h
    simp only at h
    cases hd : doZone dbg p inp rootName.bytes [] st with
    | err e => rw [hd] at h; simp at h
    | panic => rw [hd] at h; simp at h
    | ok st1 =>
      rw [hd] at h
      simp only at h
      obtain ⟨⟨ksig, hk⟩, new, i1, i2, i3, i4⟩ := doZone_pending (fun h => absurd rfl h) hd
      refine ih st1 st' ?_ h
      rw [i1, hp, List.append_nil]
      cases new with
      | nil => rfl
      | cons e es =>
        obtain ⟨s, a, b, _⟩ := i3 e (by simp)
        exact absurd ⟨s, a, b⟩ hroot

theorem zoneLoop_ok_delegates {fuel : Nat} {st : VState} (h : zoneLoop dbg p inp fuel [dot] VState.init = some (.ok st)) :
    ∃ s, SignedBy (codeCheck p) inp rootName s ∧ s.ty = dsType :=
  Classical.byContradiction fun hc => zoneLoop_root_only hc fuel VState.init st rfl h

theorem verifyRRStream_diverges (hc : Clean dbg p inp)
    (h : (¬ ∃ s, SignedBy (codeCheck p) inp rootName s ∧ s.ty = dsType) ∨
      ∃ z, Reached (codeCheck p) p inp z ∧ ∃ s, SignedBy (codeCheck p) inp z s ∧ s.ty = dsType ∧ s.name = z)
    (fuel : Nat) : verifyRRStream dbg p fuel inp = none := by
  unfold verifyRRStream
  rcases zoneLoop_clean hc fuel [dot] VState.init (by simp [VState.init]) with hz | ⟨st, hz⟩
  · rw [hz]
  · exfalso
    rcases h with h | ⟨z, h1, s, h2, h3, h4⟩
    · exact h (zoneLoop_ok_delegates hz)
    · exact (zoneLoop_final hz).noSelf z h1 s h2 h3 h4

/-- More fuel does not change an answer. -/
theorem zoneLoop_mono {fuel fuel' : Nat} (hf : fuel ≤ fuel') : ∀ {zone : Bytes} {st : VState} {r : Res VErr VState},
    zoneLoop dbg p inp fuel zone st = some r → zoneLoop dbg p inp fuel' zone st = some r := by
  induction fuel generalizing fuel' with
  | zero =>
    intro zone st r h
    rw [zoneLoop] at h
    by_cases hc : zone = [dot] ∨ st.pending ≠ []
    · rw [if_pos hc] at h; simp at h
    · rw [if_neg hc] at h
      cases fuel' <;> rw [zoneLoop, if_neg hc] <;> exact h
  | succ fuel ih =>
    intro zone st r h
    obtain ⟨k, rfl⟩ : ∃ k, fuel' = k + 1 := ⟨fuel' - 1, by omega⟩
    rw [zoneLoop] at h ⊢
    by_cases hc : zone = [dot] ∨ st.pending ≠ []
    · rw [if_pos hc] at h ⊢
      cases hp : st.pending with
      | nil =>
        rw [hp] at h
        simp only at h ⊢
        cases hd : doZone dbg p inp zone [] st with
        | err e => rw [hd] at h; exact h
        | panic => rw [hd] at h; exact h
        | ok st1 => rw [hd] at h; exact ih (by omega) h
      | cons e rest =>
        obtain ⟨z, ds⟩ := e
        rw [hp] at h
        simp only at h ⊢
        cases hd : doZone dbg p inp z.bytes ds { st with pending := rest } with
        | err e => rw [hd] at h; exact h
        | panic => rw [hd] at h; exact h
        | ok st1 => rw [hd] at h; exact ih (by omega) h
    · rw [if_neg hc] at h ⊢; exact h

theorem verifyRRStream_mono {fuel fuel' : Nat} (hf : fuel ≤ fuel') {r : Res VErr Verified}
    (h : verifyRRStream dbg p fuel inp = some r) : verifyRRStream dbg p fuel' inp = some r := by
  unfold verifyRRStream at h ⊢
  cases hz : zoneLoop dbg p inp fuel [dot] VState.init with
  | none => rw [hz] at h; simp at h
  | some x => rw [hz] at h; rw [zoneLoop_mono hf hz]; exact h

end Dnssec
