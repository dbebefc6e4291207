import Verif.Proofs.Exponential
import Verif.Proofs.Held

/-! # The exponential family with one record from a wildcard in the deepest zone -/

namespace Dnssec

open Spec

/-- The record of the wildcard `*` of the zone `eName n`. -/
def mA (n : Nat) : RR := .a ⟨eName (n + 1), ⟨[127, 0, 0, 1], rfl⟩⟩
/-- Its signature: one label less than the name has. -/
def mSig (n : Nat) : RRSig := ⟨eName (n + 1), 1, 8, UInt8.ofNat n, 3600, 2000000000, 1000000000, 20326, eName n, [1]⟩
/-- The zones of `eInput` and the record. -/
def mInput (n : Nat) : List RR := eInput n ++ [mA n, .rrsig (mSig n)]

variable {n : Nat}

theorem m_keysAt (hn : n ≤ 126) {i : Nat} (hi : i ≤ n) : keysAt (mInput n) (eName i) = [eKey i] := by
  have : keysAt (mInput n) (eName i) = keysAt (eInput n) (eName i) ++ [] := List.filterMap_append
  rw [this, List.append_nil, e_keysAt (by omega) hi]

theorem m_keySigs (n : Nat) (z : Name) : keySigs (mInput n) z = keySigs (eInput n) z := by
  have : keySigs (mInput n) z = keySigs (eInput n) z ++ keySigs [mA n, .rrsig (mSig n)] z := List.filterMap_append
  rw [this]
  have : keySigs [mA n, .rrsig (mSig n)] z = [] := by simp [keySigs, mA, mSig]
  rw [this, List.append_nil]

theorem m_dsAt (n : Nat) (z : Name) : dsAt (mInput n) z = dsAt (eInput n) z := by
  have : dsAt (mInput n) z = dsAt (eInput n) z ++ [] := List.filterMap_append
  rw [this, List.append_nil]

theorem m_anchors (n : Nat) (z : Name) : anchors (mInput n) z = anchors (eInput n) z := by
  unfold anchors; rw [m_dsAt]

theorem m_sigsBy (hn : n ≤ 126) {i : Nat} (hi : i ≤ n) :
    sigsBy (mInput n) (eName i) = (List.range (n - i)).map (fun j => eSig (i + 1 + j) 43 i) ++ if i = n then [mSig n] else [] := by
  have : sigsBy (mInput n) (eName i) = sigsBy (eInput n) (eName i) ++ sigsBy [mA n, .rrsig (mSig n)] (eName i) := List.filterMap_append
  rw [this, e_sigsBy (by omega) hi]
  congr 1
  by_cases h : i = n
  · subst h; simp [sigsBy, mA, mSig]
  · rw [if_neg h]
    have : eName n ≠ eName i := fun e => h ((eName_inj (by omega) (by omega)).mp e).symm
    simp [sigsBy, mA, mSig, this]

theorem m_rrset (hn : n ≤ 126) {i : Nat} (hi : i ≤ n) (h0 : i ≠ 0) : rrset (mInput n) (eName i) 43 = [.ds (eDs i)] := by
  rw [rrset_ds, m_dsAt, e_dsAt (by omega) hi h0]; rfl

theorem m_rrset_a (n : Nat) : rrset (mInput n) (eName (n + 1)) 1 = [mA n] := by
  have : rrset (mInput n) (eName (n + 1)) 1 = rrset (eInput n) (eName (n + 1)) 1 ++ rrset [mA n, .rrsig (mSig n)] (eName (n + 1)) 1 :=
    List.filter_append ..
  rw [this]
  have h1 : rrset (eInput n) (eName (n + 1)) 1 = [] := by
    unfold rrset
    rw [List.filter_eq_nil_iff]
    intro r hr
    have ht : r.ty = 48 ∨ r.ty = 46 ∨ r.ty = 43 := by
      unfold eInput at hr
      simp only [List.mem_append, List.mem_map, List.mem_flatMap] at hr
      rcases hr with ((⟨i, _, rfl⟩ | ⟨i, _, rfl⟩) | ⟨i, _, rfl⟩) | ⟨i, _, j, _, rfl⟩
      · exact Or.inl rfl
      · exact Or.inr (Or.inl rfl)
      · exact Or.inr (Or.inr rfl)
      · exact Or.inr (Or.inl rfl)
    rw [decide_eq_true_eq]
    rintro ⟨_, h⟩
    rw [h] at ht
    exact absurd ht (by decide)
  rw [h1]
  rw [List.nil_append]
  unfold rrset
  rw [List.filter_cons, if_pos (by rw [decide_eq_true_eq]; exact ⟨rfl, rfl⟩), List.filter_cons, if_neg]
  · rfl
  · rw [decide_eq_true_eq]; rintro ⟨_, h⟩; exact absurd h (show ¬ (46 : UInt16) = 1 by decide)

theorem m_labels (hn : n ≤ 126) : (eName (n + 1)).labels.toNat = n + 1 ∧ (mSig n).labels.toNat = n := by
  refine ⟨by rw [(eName_labels (by omega)).labels_eq]; simp, ?_⟩
  simp [mSig]; omega

theorem m_verify (hn : n ≤ 126) : verifyRrsig wPlatform (mSig n) [eKey n] [mA n] = .ok () := by
  rw [verifyRrsig_ok_iff]
  obtain ⟨l1, l2⟩ := m_labels hn
  have hm : ∃ msg, signedData (mSig n) [mA n] = some msg := by
    unfold signedData
    have hs := (trailingNLabels_isSome (eName (n + 1)) (mSig n).labels).mpr (by rw [UInt8.le_iff_toNat_le, l1, l2]; omega)
    obtain ⟨b, hb⟩ := Option.isSome_iff_exists.mp hs
    have ho : signedOwner (mSig n) (mA n) = some ([1, 42] ++ writeName b) := by
      unfold signedOwner
      have e : (mA n).name = eName (n + 1) := rfl
      simp only [e, l1, l2, hb]
      rw [if_pos ⟨show (1 : UInt16) ≠ nsecType by decide, by omega⟩, if_neg (by omega)]
      rfl
    simp only [sortBy, insertBy, signedRecords, ho]
    exact ⟨_, rfl⟩
  obtain ⟨msg, hm⟩ := hm
  refine ⟨by simp [mSig, mA, RR.ty], eKey n, msg, ⟨[], [], rfl, ⟨e_tag' n, rfl, show (257 : UInt16).toNat.testBit 8 = true by decide, rfl⟩, by simp⟩, hm, ?_⟩
  exact .rsaSha256 [0x4A, 0x5A] [3] rfl (show 3 < [(1 : UInt8), 3, 0x4A, 0x5A].length by decide) (.short 1 [3] [0x4A, 0x5A] (by decide) rfl) (by decide) rfl

theorem sigLoop_append (dbg : Bool) (p : Platform) (inp : List RR) (zone : Bytes) : ∀ (a b : List RRSig) (st : VState),
    sigLoop dbg p inp zone (a ++ b) st = (sigLoop dbg p inp zone a st).bind (sigLoop dbg p inp zone b)
  | [], b, st => rfl
  | s :: a, b, st => by
    have ih := sigLoop_append dbg p inp zone a b
    rw [List.cons_append, sigLoop, sigLoop]
    split
    · rfl
    · cases verifyRrsig p s (zoneKeys inp zone) (coveredRecords inp s) with
      | panic => rfl
      | err e => cases e <;> simp only <;> first | exact ih st | rfl
      | ok u =>
        simp only
        cases acceptSig dbg inp s (st.note s) with
        | ok st1 => exact ih st1
        | err e => rfl
        | panic => rfl

theorem m_delegations (dbg : Bool) (hn : n ≤ 126) {i : Nat} (hi : i ≤ n) {st : VState}
    (hst : ∀ e ∈ st.pending, ∃ k, k ≤ i ∧ e.1 = eName k) : ∀ (m : Nat), m ≤ n - i →
    ∃ st', sigLoop dbg wPlatform (mInput n) (eName i).bytes ((List.range m).map (fun j => eSig (i + 1 + j) 43 i)) st = .ok st' ∧
      st'.pending = eStack (i + 1) m ++ st.pending ∧ st'.needs = st.needs := by
  intro m
  induction m with
  | zero => intro _; exact ⟨st, rfl, rfl, rfl⟩
  | succ m ih =>
    intro hm
    obtain ⟨st1, h1, h2, h3⟩ := ih (by omega)
    rw [List.range_succ, List.map_append, sigLoop_append, h1]
    simp only [Res.bind, List.map_cons, List.map_nil]
    rw [sigLoop, if_neg (by
      simp only [Bool.not_eq_true', Bool.not_eq_false]
      exact eName_ends (by omega)), zoneKeys_eq, coveredRecords_eq]
    have hj0 : i + 1 + m ≠ 0 := by omega
    have hrr : rrset (mInput n) (eSig (i + 1 + m) 43 i).name (eSig (i + 1 + m) 43 i).ty = [.ds (eDs (i + 1 + m))] :=
      m_rrset hn (by omega) hj0
    rw [hrr, m_keysAt hn hi, e_good (by omega) 43 i i _ rfl rfl]
    simp only
    have hacc : acceptSig dbg (mInput n) (eSig (i + 1 + m) 43 i) (st1.note (eSig (i + 1 + m) 43 i)) =
        .ok { st1.note (eSig (i + 1 + m) 43 i) with
          pending := (eName (i + 1 + m), dsSet (mInput n) (eSig (i + 1 + m) 43 i)) :: st1.pending } := by
      unfold acceptSig
      rw [if_neg (by simp [eSig]; decide), if_pos (show (eSig (i + 1 + m) 43 i).ty = dsType from rfl), if_neg]
      · rfl
      · rw [note_pending, h2, List.any_eq_true]
        rintro ⟨e, he, heq⟩
        have heq' : e.1 = eName (i + 1 + m) := (Name.ext_iff' _ _).mp (beq_iff_eq.mp heq)
        rcases List.mem_append.mp he with he | he
        · obtain ⟨j, _, hj, hej⟩ := eStack_mem he
          have := (eName_inj (i := j) (j := i + 1 + m) (by omega) (by omega)).mp (hej.symm.trans heq')
          omega
        · obtain ⟨k, hk, hek⟩ := hst e he
          have := (eName_inj (i := k) (j := i + 1 + m) (by omega) (by omega)).mp (hek.symm.trans heq')
          omega
    rw [hacc]
    refine ⟨_, rfl, ?_, h3⟩
    simp only
    rw [dsSet_eq _ _ rfl]
    have : dsAt (mInput n) (eSig (i + 1 + m) 43 i).name = [eDs (i + 1 + m)] := by
      rw [m_dsAt]; exact e_dsAt (by omega) (by omega) hj0
    rw [this, h2]
    rfl

/-- The wildcard's record adds one entry to the denials to be looked for. -/
theorem m_wild (dbg : Bool) (hn : n ≤ 126) (st : VState) :
    ∃ st', sigLoop dbg wPlatform (mInput n) (eName n).bytes [mSig n] st = .ok st' ∧ st'.pending = st.pending ∧
      st'.needs.length = st.needs.length + 1 := by
  obtain ⟨l1, l2⟩ := m_labels hn
  rw [sigLoop, if_neg (by
    simp only [Bool.not_eq_true', Bool.not_eq_false]
    exact eName_ends (by omega)), zoneKeys_eq, coveredRecords_eq]
  have hrr : rrset (mInput n) (mSig n).name (mSig n).ty = [mA n] := m_rrset_a n
  rw [hrr, m_keysAt hn (Nat.le_refl _), m_verify hn]
  simp only
  have hl : (mSig n).labels ≠ (mSig n).name.labels := by
    intro h
    have := congrArg UInt8.toNat h
    rw [l2] at this
    have e : (mSig n).name = eName (n + 1) := rfl
    rw [e, l1] at this
    omega
  have hlt : (mSig n).labels.toNat < 255 := by rw [l2]; omega
  have hp : ((mSig n).labels + 1).toNat = n + 1 := by
    rw [UInt8.toNat_add, l2]
    have : (1 : UInt8).toNat = 1 := rfl
    omega
  have hlp : labelsPlusOne dbg (mSig n).labels = .ok ((mSig n).labels + 1) := by
    unfold labelsPlusOne
    rw [if_neg]
    intro h
    rw [Bool.and_eq_true, beq_iff_eq] at h
    rw [h.2] at hlt
    exact absurd hlt (by decide)
  have hs := (trailingNLabels_isSome (eName (n + 1)) ((mSig n).labels + 1)).mpr (by rw [UInt8.le_iff_toNat_le, l1, hp]; omega)
  obtain ⟨b, hb⟩ := Option.isSome_iff_exists.mp hs
  have hb' : (mSig n).name.trailingNLabels ((mSig n).labels + 1) = some b := hb
  have hacc : ∀ st1 : VState, ∃ st', acceptSig dbg (mInput n) (mSig n) st1 = .ok st' ∧ st'.pending = st1.pending ∧
      st'.needs.length = st1.needs.length + 1 := by
    intro st1
    unfold acceptSig
    rw [if_neg (by simp [mSig]; decide), if_neg (show ¬ (mSig n).ty = dsType from by simp [mSig]; decide)]
    simp only
    rw [if_pos ⟨hl, by simp [mSig]; decide⟩, if_neg (by simp [mSig]; decide), hlp]
    simp only [Res.bind, hb']
    exact ⟨_, rfl, rfl, by simp⟩
  obtain ⟨st', h1, h2, h3⟩ := hacc (st.note (mSig n))
  rw [h1]
  exact ⟨st', rfl, h2, h3⟩

theorem m_doZone (dbg : Bool) (hn : n ≤ 126) {i : Nat} (hi : i ≤ n) (ds : List DS) (hds : i ≠ 0 → ds = [eDs i]) {st : VState}
    (hst : ∀ e ∈ st.pending, ∃ k, k ≤ i ∧ e.1 = eName k) :
    ∃ st', doZone dbg wPlatform (mInput n) (eName i).bytes ds st = .ok st' ∧
      st'.pending = eStack (i + 1) (n - i) ++ st.pending ∧ st'.needs.length = st.needs.length + if i = n then 1 else 0 := by
  rw [doZone_eq _ _ _ _ _ _ (by
    intro h
    have h0 : i ≠ 0 := fun e => h ((eName_root i).mpr e)
    rw [hds h0, m_dsAt, e_dsAt (by omega) hi h0]), m_keySigs, m_anchors, m_keysAt hn hi, ← e_keysAt (by omega) hi,
    e_verifyDnskeys (by omega) hi, m_sigsBy hn hi]
  simp only [Res.bind]
  rw [sigLoop_append]
  obtain ⟨st1, h1, h2, h3⟩ := m_delegations dbg hn hi (st := st.note (eSig i 48 i)) hst (n - i) (Nat.le_refl _)
  rw [h1]
  simp only [Res.bind]
  by_cases h : i = n
  · subst h
    rw [if_pos rfl, if_pos rfl]
    obtain ⟨st2, k1, k2, k3⟩ := m_wild dbg hn st1
    exact ⟨st2, k1, k2.trans h2, by rw [k3, h3]; rfl⟩
  · rw [if_neg h, if_neg h]
    exact ⟨st1, rfl, h2, by rw [h3]; rfl⟩

/-! ### Counting -/

theorem m_visit (dbg : Bool) (hn : n ≤ 126) : ∀ (d i : Nat), i ≤ n → n - i = d → i ≠ 0 → ∀ (fuel : Nat) (zone : Bytes)
    (st : VState) (rest : List (Name × List DS)), st.pending = (eName i, [eDs i]) :: rest →
    (∀ e ∈ rest, ∃ k, k < i ∧ e.1 = eName k) → 2 ^ d ≤ fuel →
    ∃ zone' st', st'.pending = rest ∧ zone' ≠ [dot] ∧ st.needs.length * 2 + 2 ^ d ≤ st'.needs.length * 2 ∧
      zoneLoop dbg wPlatform (mInput n) fuel zone st = zoneLoop dbg wPlatform (mInput n) (fuel - 2 ^ d) zone' st' := by
  intro d
  induction d using Nat.strongRecOn with
  | _ d ihd =>
  intro i hi hd h0 fuel zone st rest hp hrest hf
  have hzone : (eName i).bytes ≠ [dot] := fun h => h0 ((eName_root i).mp ((Name.ext_iff' _ _).mp h))
  -- the zones pushed by `i`, from the top
  have stack : ∀ (k : Nat), k ≤ d → ∀ (fuel : Nat) (zone : Bytes) (st : VState),
      st.pending = eStack (i + 1) k ++ rest → zone ≠ [dot] → 2 ^ d - 2 ^ (d - k) ≤ fuel →
      ∃ zone' st', st'.pending = rest ∧ zone' ≠ [dot] ∧ st.needs.length * 2 + (2 ^ d - 2 ^ (d - k)) ≤ st'.needs.length * 2 ∧
        zoneLoop dbg wPlatform (mInput n) fuel zone st =
          zoneLoop dbg wPlatform (mInput n) (fuel - (2 ^ d - 2 ^ (d - k))) zone' st' := by
    intro k
    induction k with
    | zero =>
      intro _ fuel zone st hst hz _
      refine ⟨zone, st, ?_, hz, by simp, by simp⟩
      rw [hst]; rfl
    | succ k ihk =>
      intro hk fuel zone st hst hz hf
      have hle : 2 ^ (d - k) ≤ 2 ^ d := Nat.pow_le_pow_right (by omega) (by omega)
      have hsucc : 2 ^ (d - k) = 2 * 2 ^ (d - (k + 1)) := by
        have : d - k = (d - (k + 1)) + 1 := by omega
        rw [this, Nat.pow_succ]; omega
      have hpos : 0 < 2 ^ (d - (k + 1)) := Nat.pow_pos (by omega)
      obtain ⟨zone1, st1, w1, w2, w4, w3⟩ := ihd (d - (k + 1)) (by omega) (i + 1 + k) (by omega) (by omega) (by omega) fuel zone st
        (eStack (i + 1) k ++ rest) (by rw [hst]; rfl) (by
          intro e he
          rcases List.mem_append.mp he with he | he
          · obtain ⟨j, _, a, b⟩ := eStack_mem he
            exact ⟨j, a, b⟩
          · obtain ⟨j, a, b⟩ := hrest e he
            exact ⟨j, by omega, b⟩) (by omega)
      obtain ⟨zone2, st2, x1, x2, x4, x3⟩ := ihk (by omega) (fuel - 2 ^ (d - (k + 1))) zone1 st1 w1 w2 (by omega)
      refine ⟨zone2, st2, x1, x2, by omega, ?_⟩
      rw [w3, x3]
      congr 1
      omega
  have hpos : 0 < 2 ^ d := Nat.pow_pos (by omega)
  cases fuel with
  | zero => omega
  | succ fuel =>
    obtain ⟨st1, hdz, hp1, hn1⟩ := m_doZone dbg hn hi [eDs i] (fun _ => rfl) (st := { st with pending := rest }) (by
      intro e he
      obtain ⟨k, a, b⟩ := hrest e he
      exact ⟨k, by omega, b⟩)
    have hstep : zoneLoop dbg wPlatform (mInput n) (fuel + 1) zone st =
        zoneLoop dbg wPlatform (mInput n) fuel (eName i).bytes st1 := by
      rw [zoneLoop, if_pos (Or.inr (by rw [hp]; simp)), hp]
      simp only
      rw [hdz]
    rw [hd] at hp1
    obtain ⟨zone', st', a, b, e, c⟩ := stack d (Nat.le_refl _) fuel (eName i).bytes st1 hp1 hzone (by simp only [Nat.sub_self, Nat.pow_zero]; omega)
    simp only [Nat.sub_self, Nat.pow_zero] at c e
    refine ⟨zone', st', a, b, ?_, ?_⟩
    · change st1.needs.length = st.needs.length + _ at hn1
      by_cases hin : i = n
      · rw [if_pos hin] at hn1
        have : d = 0 := by omega
        subst this
        simp only [Nat.pow_zero] at *
        omega
      · rw [if_neg hin] at hn1
        obtain ⟨m, rfl⟩ : ∃ m, d = m + 1 := ⟨d - 1, by omega⟩
        rw [Nat.pow_succ] at *
        omega
    · rw [hstep, c]
      congr 1
      omega

theorem m_stack (dbg : Bool) (hn : n ≤ 126) : ∀ (k : Nat), k ≤ n → ∀ (fuel : Nat) (zone : Bytes) (st : VState),
    st.pending = eStack 1 k → (zone ≠ [dot] ∨ k ≠ 0) → 2 ^ n - 2 ^ (n - k) ≤ fuel →
    ∃ st', zoneLoop dbg wPlatform (mInput n) fuel zone st = some (.ok st') ∧
      st.needs.length * 2 + (2 ^ n - 2 ^ (n - k)) ≤ st'.needs.length * 2 := by
  intro k
  induction k with
  | zero =>
    intro _ fuel zone st hst hz _
    have hz' : zone ≠ [dot] := by simpa using hz
    have hc : ¬(zone = [dot] ∨ st.pending ≠ []) := by rw [hst]; simp [eStack, hz']
    refine ⟨st, ?_, by simp⟩
    cases fuel <;> rw [zoneLoop, if_neg hc]
  | succ k ihk =>
    intro hk fuel zone st hst _ hf
    have hsucc : 2 ^ (n - k) = 2 * 2 ^ (n - (k + 1)) := by
      have : n - k = (n - (k + 1)) + 1 := by omega
      rw [this, Nat.pow_succ]; omega
    have hle : 2 ^ (n - k) ≤ 2 ^ n := Nat.pow_le_pow_right (by omega) (by omega)
    have hpos : 0 < 2 ^ (n - (k + 1)) := Nat.pow_pos (by omega)
    obtain ⟨zone1, st1, w1, w2, w4, w3⟩ := m_visit dbg hn (n - (k + 1)) (1 + k) (by omega) (by omega) (by omega) fuel zone st (eStack 1 k)
      (by rw [hst]; rfl) (by
        intro e he
        obtain ⟨j, _, a, b⟩ := eStack_mem he
        exact ⟨j, a, b⟩) (by omega)
    obtain ⟨st2, x1, x2⟩ := ihk (by omega) (fuel - 2 ^ (n - (k + 1))) zone1 st1 w1 (Or.inl w2) (by omega)
    exact ⟨st2, by rw [w3, x1], by omega⟩

/-- After `2^n` iterations the loop has ended with at least `2^(n-1)` denials to look for. -/
theorem m_exact (dbg : Bool) (hn : n ≤ 126) (h1 : 1 ≤ n) :
    ∃ st, zoneLoop dbg wPlatform (mInput n) (2 ^ n) [dot] VState.init = some (.ok st) ∧ 2 ^ (n - 1) ≤ st.needs.length := by
  have hpos : 0 < 2 ^ n := Nat.pow_pos (by omega)
  obtain ⟨fuel, hfuel⟩ : ∃ f, 2 ^ n = f + 1 := ⟨2 ^ n - 1, by omega⟩
  obtain ⟨st1, hdz, hp1, hn1⟩ := m_doZone dbg hn (Nat.zero_le n) [] (fun h => absurd rfl h) (st := VState.init)
    (by simp [VState.init])
  have hp1' : st1.pending = eStack 1 n := by rw [hp1]; simp [VState.init]
  have hstep : zoneLoop dbg wPlatform (mInput n) (fuel + 1) [dot] VState.init =
      zoneLoop dbg wPlatform (mInput n) fuel (eName 0).bytes st1 := by
    rw [zoneLoop, if_pos (Or.inl rfl)]
    change (match doZone dbg wPlatform (mInput n) (eName 0).bytes [] VState.init with
      | .ok st => zoneLoop dbg wPlatform (mInput n) fuel (eName 0).bytes st
      | .err e => some (.err e)
      | .panic => some .panic) = _
    rw [hdz]
  obtain ⟨st2, x1, x2⟩ := m_stack dbg hn n (Nat.le_refl _) fuel (eName 0).bytes st1 hp1' (Or.inr (by omega)) (by simp only [Nat.sub_self, Nat.pow_zero]; omega)
  refine ⟨st2, by rw [hfuel, hstep, x1], ?_⟩
  obtain ⟨m, rfl⟩ : ∃ m, n = m + 1 := ⟨n - 1, by omega⟩
  simp only [Nat.sub_self, Nat.pow_zero, Nat.add_sub_cancel] at *
  rw [Nat.pow_succ] at *
  omega

end Dnssec
