import Verif.Proofs.Once
import Verif.Props.Crypto
import Verif.Props.Honest

/-! # C55, C80: the work of verification if each zone has one parent -/

namespace Dnssec.Props

open Dnssec Spec

variable {dbg : Bool} {p : Platform} {inp : List RR}

/-- **C55.** If the root delegates, no zone delegates to itself and no two zones delegate to the same one, as in the DNS, then each zone
is looked at once: the number of zones processed is at most one more than the number of RRSIGs over DS sets in the input. Missing from
the full property: inputs in which a name has DS sets signed by two zones (C55_fails_exponential). -/
theorem C55_once_partial (h1 : RootDelegates (codeCheck p) inp) (h2 : ¬ SelfDelegation (codeCheck p) p inp)
    (h3 : OneParent (codeCheck p) p inp) : verifyRRStream dbg p (delegationCount inp + 1) inp ≠ none := by
  have h := zoneLoop_once h1 h2 h3 (delegationCount inp + 1) (Tree.init dbg p inp) (by simp)
  rw [← verifyRRStreamE_res, verifyRRStreamE]
  simp only
  split
  · exact absurd (by assumption) h
  · simp
  · simp
  · simp

/-- **C80.** Under the same conditions there is a result and, however long it runs, each RRSIG is checked at most once (as often as it
occurs in the input), each DNSKEY record is digested at most once for each DS record (or root anchor), and at most two NSEC3 hashes are
computed for each RRSIG. -/
theorem C80_once_partial (h1 : RootDelegates (codeCheck p) inp) (h2 : ¬ SelfDelegation (codeCheck p) p inp)
    (h3 : OneParent (codeCheck p) p inp) : ∃ r ops,
    (∀ fuel, delegationCount inp + 1 ≤ fuel → verifyRRStreamE dbg p fuel inp = ⟨some r, ops⟩) ∧
    (∀ s, checksOf s ops ≤ inp.count (.rrsig s)) ∧ signatureChecks ops ≤ sigCount inp ∧
    keyDigests ops ≤ keyCount inp * max 2 (dsCount inp) ∧ nsec3Hashes ops ≤ 5002 * sigCount inp := by
  have h0 := C55_once_partial (dbg := dbg) h1 h2 h3
  rw [← C80_same_result] at h0
  have hs := fun fuel (hf : delegationCount inp + 1 ≤ fuel) => verifyRRStreamE_stable hf h0
  obtain ⟨w1, w2⟩ := zoneLoopE_workIn h1 h2 h3 (delegationCount inp + 1) (Tree.init dbg p inp)
  have e1 : sigsIn inp (fun y => y ∉ ([] : List Name)) = rrsigs inp := by
    unfold sigsIn
    exact List.filter_eq_self.mpr (by simp)
  have e2 : keysIn inp (fun y => y ∉ ([] : List Name)) = keyCount inp := by
    unfold keysIn keyCount
    exact List.countP_congr (fun r _ => by cases r <;> simp)
  rw [e1, rrsigs_length] at w2
  have k1 := w1.checks
  have k2 := w1.each
  have k3 := w1.digests
  have k4 := w1.hashes
  rw [e1, rrsigs_length] at k1
  rw [e1] at k2
  rw [e2] at k3
  -- the operations: those of the zone loop, then hashes
  have key : ∃ b, (verifyRRStreamE dbg p (delegationCount inp + 1) inp).ops =
      (zoneLoopE dbg p inp (delegationCount inp + 1) [dot] VState.init).ops ++ b ∧ b.length ≤ sigCount inp * 5002 ∧
      ∀ op ∈ b, ∃ x, op = .hash x := by
    rw [verifyRRStreamE]
    simp only
    split
    · exact ⟨[], by rw [List.append_nil], Nat.zero_le _, by simp⟩
    · rename_i st h
      obtain ⟨h5, h6⟩ := finishVerifyE_ops (p := p) st
      refine ⟨_, rfl, Nat.le_trans h5 (Nat.mul_le_mul_right _ ?_), h6⟩
      simpa [VState.init] using w2 st h
    · exact ⟨[], by rw [List.append_nil], Nat.zero_le _, by simp⟩
    · exact ⟨[], by rw [List.append_nil], Nat.zero_le _, by simp⟩
  obtain ⟨b, hb, hl, hx⟩ := key
  obtain ⟨c1, c2, c3⟩ := hash_counts hx
  generalize verifyRRStreamE dbg p (delegationCount inp + 1) inp = t at hb hs h0
  obtain ⟨r, ops⟩ := t
  simp only at hb
  cases r with
  | none => exact absurd rfl h0
  | some r =>
    refine ⟨r, ops, hs, fun s => ?_, ?_, ?_, ?_⟩
    · rw [hb, checksOf_append, c2, ← rrsigs_count]
      exact k2 s
    · rw [hb, signatureChecks_append, c1]
      exact k1
    · rw [hb, keyDigests, List.countP_append]
      unfold keyDigests at c3 k3
      omega
    · rw [hb, nsec3Hashes, List.countP_append]
      have h5 : nsec3Hashes b ≤ b.length := List.countP_le_length
      unfold nsec3Hashes at k4 h5
      omega

/-- The example stream meets the conditions, and the bounds are reached: two zones, four signatures. -/
example : RootDelegates (codeCheck wPlatform) wStream ∧ ¬ SelfDelegation (codeCheck wPlatform) wPlatform wStream ∧
    OneParent (codeCheck wPlatform) wPlatform wStream ∧ delegationCount wStream + 1 = 2 ∧ sigCount wStream = 4 ∧
    signatureChecks (verifyRRStreamE true wPlatform 2 wStream).ops = 4 ∧ verifyRRStream true wPlatform 1 wStream = none := by
  have hw := C31_ok_needs (wStream_ok true)
  refine ⟨hw.1, hw.2, OneParent.of_signers ?_, by decide +kernel, by decide +kernel, by decide +kernel, by decide +kernel⟩
  have h : ∀ r ∈ wStream, ∀ r' ∈ wStream, (match r, r' with
    | .rrsig s, .rrsig s' => decide (s.ty = 43 → s'.ty = 43 → s.name = s'.name → s.keyName = s'.keyName)
    | _, _ => true) = true := by decide +kernel
  intro s s' hs hs' ht ht' hn
  have := h _ hs _ hs'
  simp only [decide_eq_true_eq] at this
  exact this ht ht' hn

theorem sigCount_append (a b : List RR) : sigCount (a ++ b) = sigCount a + sigCount b := List.countP_append

theorem sigCount_sets : ∀ l : List SignedSet, (∀ s ∈ l, s.WellFormed) →
    sigCount (l.flatMap SignedSet.all) = (l.map fun s => s.sigs.length).sum
  | [], _ => rfl
  | s :: l, h => by
    have ih := sigCount_sets l fun t ht => h t (List.mem_cons_of_mem _ ht)
    have hs := h s List.mem_cons_self
    have h1 : sigCount s.records = 0 := countP_none _ fun r hr => by
      have := (hs.members r hr).2
      cases r with
      | rrsig _ => exact absurd this.symm hs.notSig
      | _ => rfl
    have h2 : sigCount (s.sigs.map .rrsig) = s.sigs.length := by
      unfold sigCount
      rw [List.countP_map]
      exact List.countP_eq_length.mpr fun a _ => rfl
    rw [List.flatMap_cons, sigCount_append, SignedSet.all, sigCount_append, h1, h2, ih, Nat.zero_add, List.map_cons, List.sum_cons]

/-- **C55, C80, for honest proofs.** In a correctly signed world as in C67 in which each DS set is signed by one zone, the proof built is verified
with each zone looked at once and each signature checked at most once. -/
theorem C80_honest_partial {w : World} {name : Name} {ty : UInt16} {resolve : Bytes → Bytes} (hw : w.Signed p) (hk : w.AnsweredAnchoredFirst dbg p resolve)
    (hr : Honest dbg w name ty resolve) (h1 : w.zones ≠ []) (h4 : w.zones.length ≤ 4)
    (hd : ∀ z ∈ w.zones, ∀ s ∈ z.ds.sigs, ∀ t ∈ z.ds.sigs, s.keyName = t.keyName)
    {answered : List Bytes} {b : ProofBuilder} (h : Session dbg resolve name ty [] answered b) :
    ∃ proof ttl inp, b.finish = some (proof, ttl) ∧ (∀ dbg', parseRRStream dbg' proof = .ok inp) ∧ ∀ dbg', ∃ v ops,
      (∀ fuel, delegationCount inp + 1 ≤ fuel → verifyRRStreamE dbg' p fuel inp = ⟨some (.ok v), ops⟩) ∧
      (∀ s, checksOf s ops ≤ inp.count (.rrsig s)) ∧ signatureChecks ops ≤ (w.sets.map fun s => s.sigs.length).sum := by
  obtain ⟨proof, ttl, inp, extra, f1, fx, f2, f3, fo⟩ := session_done hw hr h h4
  obtain ⟨inp', g1, g2, g3⟩ := without_unsigned hw fx f2
  have hsig : ∀ s, RR.rrsig s ∈ inp → s.ty = 43 → ∃ z ∈ w.zones, s ∈ z.ds.sigs ∧ s.name = z.ds.owner := by
    intro s hs ht
    rcases List.mem_append.mp (f2.mem_iff.mp hs) with hs | hs
    · obtain ⟨t, ht', hs⟩ := List.mem_flatMap.mp hs
      have hwf := hw.wellFormed t ht'
      rcases List.mem_append.mp hs with hs | hs
      · exact absurd (hwf.members _ hs).2.symm hwf.notSig
      · obtain ⟨s', hs, e⟩ := List.mem_map.mp hs
        cases e
        have hc := hwf.covers _ hs
        have ht43 : t.ty = 43 := hc.2 ▸ ht
        rcases List.mem_append.mp ht' with ht' | ht'
        · exact absurd ht43 (hw.answerSets t ht').2
        · rcases List.mem_cons.mp ht' with rfl | ht'
          · rw [hw.rootSet.2] at ht43; exact absurd ht43 (by decide)
          · obtain ⟨z, hz, ht'⟩ := List.mem_flatMap.mp ht'
            have hzs := hw.zoneSets z hz
            simp only [List.mem_cons, List.not_mem_nil, or_false] at ht'
            rcases ht' with rfl | rfl
            · rw [hzs.1] at ht43; exact absurd ht43 (by decide)
            · exact ⟨z, hz, hs, hc.1⟩
    · exact absurd rfl (fx _ hs).1
  have hone : OneParent (codeCheck p) p inp := by
    refine OneParent.of_signers fun s s' hs hs' ht ht' hn => ?_
    obtain ⟨z, hz, m, e⟩ := hsig s hs ht
    obtain ⟨z', hz', m', e'⟩ := hsig s' hs' ht'
    have hzz : z.ds = z'.ds := by
      have hin : ∀ y ∈ w.zones, y.ds ∈ w.sets := fun y hy =>
        List.mem_append_right _ (List.mem_cons_of_mem _ (List.mem_flatMap.mpr ⟨y, hy, by simp⟩))
      exact distinct_eq hw.distinct (hin z hz) (hin z' hz') (by rw [← e, ← e', hn]) (by rw [(hw.zoneSets z hz).2.1, (hw.zoneSets z' hz').2.1])
    exact hd z hz s m s' (hzz ▸ m')
  refine ⟨proof, ttl, inp, f1, f3, fun dbg' => ?_⟩
  obtain ⟨fuel, v, hv, _⟩ := world_verified hw ((first_iff hw hr fo g3).mpr hk) g1 h1 dbg'
  rw [g2] at hv
  obtain ⟨k1, k2⟩ := C31_ok_needs hv
  obtain ⟨r, ops, o1, o2, o3, _, _⟩ := C80_once_partial (dbg := dbg') k1 k2 hone
  have hr' : r = .ok v := by
    have h2 := o1 (delegationCount inp + 1) (Nat.le_refl _)
    have h3 : verifyRRStream dbg' p (delegationCount inp + 1) inp = some r := by rw [← C80_same_result, h2]
    exact C31_answer_unique h3 hv
  subst hr'
  refine ⟨v, ops, o1, o2, ?_⟩
  have e1 : sigCount inp = sigCount (w.records ++ extra) := f2.countP_eq _
  have e2 : sigCount extra = 0 := countP_none _ fun r hr => by
    have := (fx r hr).1
    cases r with
    | rrsig _ => exact absurd rfl this
    | _ => rfl
  rw [e1, sigCount_append, e2, Nat.add_zero, World.records, sigCount_sets _ hw.wellFormed] at o3
  exact o3

/-- The world of C67's example meets the conditions. -/
example : exWorld.Signed lenPlatform ∧ exWorld.AnsweredAnchoredFirst true lenPlatform exResolve ∧ Honest true exWorld ⟨ascii "x.c."⟩ 1 exResolve ∧
    (∀ z ∈ exWorld.zones, ∀ s ∈ z.ds.sigs, ∀ t ∈ z.ds.sigs, s.keyName = t.keyName) ∧ (exWorld.sets.map fun s => s.sigs.length).sum = 5 ∧
    ∃ answered b, Session true exResolve ⟨ascii "x.c."⟩ 1 [] answered b := by
  obtain ⟨ans, b, hs, _⟩ := session_fifo exSigned (exHonest true) (by decide) 10 _ [] _ (by simp) .new .new
  exact ⟨exSigned, answeredFirst exSigned (exHonest true) exAnchored, exHonest true, by decide +kernel, by decide +kernel, ans, b, hs⟩

end Dnssec.Props
