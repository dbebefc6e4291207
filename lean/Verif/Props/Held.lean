import Verif.Proofs.HeldExponential
import Verif.Props.Once
import Verif.Props.Chain

/-! # C119: what verification holds in memory -/

namespace Dnssec.Props

open Dnssec Spec

variable {dbg : Bool} {p : Platform} {inp : List RR}

/-- **C119.** The states are those of the run: it starts with nothing held, each state follows from the one before by a single step (a zone
is taken, the validity of a signature noted, or a signature accepted), and if looking at the zones ends well, the last state is the one
from which the result is made. -/
theorem C119_states (fuel : Nat) :
    (heldStates dbg p fuel inp).head? = some VState.init ∧ Steps dbg inp (heldStates dbg p fuel inp) ∧
    (∀ st, zoneLoop dbg p inp fuel [dot] VState.init = some (.ok st) → (heldStates dbg p fuel inp).getLast? = some st) :=
  ⟨zoneStates_head fuel _ _, zoneStates_steps fuel, fun _ h => zoneStates_last fuel h⟩

/-- **C119.** At no time, also on inputs that are rejected or on which it never returns, does `verify_rr_stream` hold a record twice or one
that is not in the input, or a zone twice or one without a signed DS set: the records held are at most those of the input, and the zones
waiting at most as many as there are RRSIGs over DS sets. -/
theorem C119_records_and_zones (fuel : Nat) : ∀ st ∈ heldStates dbg p fuel inp,
    st.res.Nodup ∧ (∀ r ∈ st.res, r ∈ inp) ∧ st.res.length ≤ inp.length ∧
    (st.pending.map Prod.fst).Nodup ∧ (∀ e ∈ st.pending, ∃ s, RR.rrsig s ∈ inp ∧ s.ty = 43 ∧ s.name = e.1) ∧
    st.pending.length ≤ delegationCount inp := by
  intro st hm
  have h := Distinct.kept.zoneStates fuel Distinct.init st hm
  refine ⟨h.res, h.resIn, nodup_length_le' h.res h.resIn, h.zones, fun e he => ?_, ?_⟩
  · have := h.zonesIn e.1 (List.mem_map_of_mem he)
    obtain ⟨r, hr, e1⟩ := List.mem_filterMap.mp this
    cases r with
    | rrsig s =>
      simp only at e1
      split at e1
      · rename_i ht; exact ⟨s, hr, ht, Option.some.inj e1⟩
      · cases e1
    | _ => cases e1
  · have := nodup_length_le' h.zones h.zonesIn
    rwa [List.length_map, dsOwners_length] at this

/-- **C119.** Each zone looked at adds to the list of denials to be looked for at most one entry for each RRSIG of the input. -/
theorem C119_each_zone (fuel : Nat) : ∀ st ∈ heldStates dbg p fuel inp, st.needs.length ≤ fuel * sigCount inp := by
  intro st hm
  have := zoneStates_each fuel st hm
  simpa [VState.init] using this

/-- **C119, in part:** if the root delegates, no zone delegates to itself and each zone has one parent, as in the DNS, then at any time the
list of denials to be looked for has at most as many entries as the input has RRSIGs, so that with the theorem above all that is held is
linear in the input. Missing from the full property: all other inputs, for which it is false (the two theorems below). -/
theorem C119_needs_partial (h1 : RootDelegates (codeCheck p) inp) (h2 : ¬ SelfDelegation (codeCheck p) p inp)
    (h3 : OneParent (codeCheck p) p inp) (fuel : Nat) : ∀ st ∈ heldStates dbg p fuel inp, st.needs.length ≤ sigCount inp := by
  intro st hm
  have := zoneStates_once h1 h2 h3 fuel (Tree.init dbg p inp) st hm
  have h0 := sigsIn_le (inp := inp) (fun y => y ∉ ([] : List Name))
  simp only [VState.init, List.length_nil, Nat.zero_add] at this
  exact Nat.le_trans this h0

/-- A proof with a record from a wildcard and the NSEC record that denies its name. -/
def heldWild : List RR := wildStream "a.c." "z.c." [1]

/-- It meets the conditions, and its one denial is held. -/
example : RootDelegates (codeCheck wPlatform) heldWild ∧ ¬ SelfDelegation (codeCheck wPlatform) wPlatform heldWild ∧
    OneParent (codeCheck wPlatform) wPlatform heldWild ∧
    ((heldStates true wPlatform 2 heldWild).map fun st => (st.pending.length, st.res.length, st.needs.length)).getLast? =
      some (0, 2, 1) := by
  have hw : ∃ v, verifyRRStream true wPlatform 2 heldWild = some (.ok v) := by
    have : (match verifyRRStream true wPlatform 2 heldWild with | some (.ok _) => true | _ => false) = true := by decide +kernel
    split at this
    · rename_i v h; exact ⟨v, h⟩
    · cases this
  obtain ⟨v, hv⟩ := hw
  have hw := C31_ok_needs hv
  refine ⟨hw.1, hw.2, OneParent.of_signers ?_, by decide +kernel⟩
  have h : ∀ r ∈ heldWild, ∀ r' ∈ heldWild, (match r, r' with
    | .rrsig s, .rrsig s' => decide (s.ty = 43 → s'.ty = 43 → s.name = s'.name → s.keyName = s'.keyName)
    | _, _ => true) = true := by decide +kernel
  intro s s' hs hs' ht ht' hn
  have := h _ hs _ hs'
  simp only [decide_eq_true_eq] at this
  exact this ht ht' hn

theorem m_unbounded (dbg : Bool) : ∀ (fuel : Nat) (st : VState), st.pending = [] →
    ∃ st' ∈ zoneStates dbg wPlatform (mInput 0) fuel [dot] st, st'.needs.length = st.needs.length + fuel
  | 0, st, _ => ⟨st, by rw [zoneStates_zero]; simp, rfl⟩
  | fuel + 1, st, hp => by
    obtain ⟨st1, h1, h2, h3⟩ := m_doZone (n := 0) dbg (by omega) (Nat.le_refl 0) [] (fun h => absurd rfl h) (st := st) (by simp [hp])
    obtain ⟨st2, k1, k2⟩ := m_unbounded dbg fuel st1 (by rw [h2, hp]; rfl)
    have e : nextZone [dot] st = ([dot], [], st) := by rw [nextZone, hp]
    have h1' : doZone dbg wPlatform (mInput 0) [dot] [] st = .ok st1 := h1
    refine ⟨st2, ?_, by rw [k2, h3, if_pos rfl]; omega⟩
    rw [zoneStates_succ fuel (Or.inl rfl), e]
    simp only [h1']
    exact List.mem_cons_of_mem _ (List.mem_append_right _ k1)

/-- **C119 is false**: a proof of four records (the root's key with its signature, and a signed address record from a wildcard) not only is
never done with (C31): each time round another entry is added, so that the memory held has no bound. -/
theorem C119_fails_unbounded (dbg : Bool) : (mInput 0).length = 4 ∧
    ∀ fuel, ∃ st ∈ heldStates dbg wPlatform fuel (mInput 0), st.needs.length = fuel := by
  refine ⟨rfl, fun fuel => ?_⟩
  obtain ⟨st, h1, h2⟩ := m_unbounded dbg fuel VState.init rfl
  exact ⟨st, h1, by simpa [VState.init] using h2⟩

/-- **C119 is false also where verification comes to an end**: with `n + 1` zones, each of which signs the DS sets of all below it, and one
record from a wildcard in the last, at the end of the loop over the zones at least `2^(n-1)` entries are held. -/
theorem C119_fails_exponential (dbg : Bool) (n : Nat) (h1 : 1 ≤ n) (hn : n ≤ 126) :
    (mInput n).length ≤ (n + 3) * (n + 3) + 2 ∧ verifyRRStream dbg wPlatform (2 ^ n) (mInput n) ≠ none ∧
    ∃ st ∈ heldStates dbg wPlatform (2 ^ n) (mInput n), 2 ^ (n - 1) ≤ st.needs.length := by
  obtain ⟨st, hz, hl⟩ := m_exact dbg hn h1
  refine ⟨?_, ?_, st, List.mem_of_getLast? (zoneStates_last _ hz), hl⟩
  · have := eInput_length n
    unfold mInput
    rw [List.length_append]
    exact Nat.add_le_add_right this 2
  · unfold verifyRRStream
    rw [hz]
    simp

/-- With 41 zones the input has 944 records and at least 2^39 entries are held. -/
example (dbg : Bool) : (mInput 40).length = 944 ∧ ∃ fuel, ∃ st ∈ heldStates dbg wPlatform fuel (mInput 40), 549755813888 ≤ st.needs.length :=
  ⟨by decide +kernel, _, (C119_fails_exponential dbg 40 (by decide) (by decide)).2.2⟩

end Dnssec.Props
