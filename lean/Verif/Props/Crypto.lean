import Verif.Proofs.Crypto
import Verif.Props.Termination

/-! # C80: the cryptographic work of verification -/

namespace Dnssec.Props

open Dnssec Spec

variable {dbg : Bool} {p : Platform} {inp : List RR}

/-- **C80.** `verifyRRStreamE`, with which the operations are counted, gives the result of `verify_rr_stream`. -/
theorem C80_same_result (fuel : Nat) : (verifyRRStreamE dbg p fuel inp).res = verifyRRStream dbg p fuel inp := verifyRRStreamE_res fuel

/-- The operations are those of the zone loop, then some NSEC3 hashes. -/
theorem ops_split (fuel : Nat) : ∃ a b, (verifyRRStreamE dbg p fuel inp).ops = a ++ b ∧ Work p inp fuel a ∧ Stops p a ∧
    (b = [] ∨ NoBad p a) ∧ b.length ≤ fuel * sigCount inp * 5002 ∧ ∀ op ∈ b, ∃ x, op = .hash x := by
  obtain ⟨h1, h2⟩ := zoneLoopE_work (dbg := dbg) (p := p) (inp := inp) fuel (zone := [dot]) (Inv.init dbg p inp)
  obtain ⟨h3, h4⟩ := zoneLoopE_stops (dbg := dbg) (p := p) (inp := inp) fuel [dot] VState.init
  rw [verifyRRStreamE]
  simp only
  split
  · exact ⟨_, [], by rw [List.append_nil], h1, h3, Or.inl rfl, Nat.zero_le _, by simp⟩
  · rename_i st h
    obtain ⟨h5, h6⟩ := finishVerifyE_ops (p := p) st
    refine ⟨_, _, rfl, h1, h3, Or.inr (h4 st h), Nat.le_trans h5 (Nat.mul_le_mul_right _ ?_), h6⟩
    have := h2 st h
    simpa [VState.init] using this
  · exact ⟨_, [], by rw [List.append_nil], h1, h3, Or.inl rfl, Nat.zero_le _, by simp⟩
  · exact ⟨_, [], by rw [List.append_nil], h1, h3, Or.inl rfl, Nat.zero_le _, by simp⟩

theorem hash_counts {b : List CryptoOp} (h : ∀ op ∈ b, ∃ x, op = .hash x) :
    signatureChecks b = 0 ∧ (∀ s, checksOf s b = 0) ∧ keyDigests b = 0 := by
  refine ⟨countP_none _ fun op ho => ?_, fun s => countP_none _ fun op ho => ?_, countP_none _ fun op ho => ?_⟩ <;>
  · obtain ⟨_, rfl⟩ := h op ho
    rfl

/-- **C80, signatures:** per zone visited, at most one signature check for each RRSIG of the input (`fuel` bounds the number of zones
visited; this holds also of verifications that do not end). Missing from the full property: a bound without the number of visits
(C80_fails_checked_twice, C80_fails_exponential). -/
theorem C80_signatures_partial (fuel : Nat) : signatureChecks (verifyRRStreamE dbg p fuel inp).ops ≤ fuel * sigCount inp ∧
    ∀ s, checksOf s (verifyRRStreamE dbg p fuel inp).ops ≤ fuel * inp.count (.rrsig s) := by
  obtain ⟨a, b, e, h1, _, _, _, h2⟩ := ops_split (dbg := dbg) (p := p) (inp := inp) fuel
  obtain ⟨c1, c2, _⟩ := hash_counts h2
  rw [e]
  constructor
  · rw [signatureChecks_append, c1]
    exact h1.checks
  · intro s
    rw [checksOf_append, c2]
    exact h1.each s

/-- **C80, digests:** per zone visited, at most one digest for each DNSKEY and DS record (or one of the two root anchors). -/
theorem C80_digests_partial (fuel : Nat) :
    keyDigests (verifyRRStreamE dbg p fuel inp).ops ≤ fuel * (keyCount inp * max 2 (dsCount inp)) := by
  obtain ⟨a, b, e, h1, _, _, _, h2⟩ := ops_split (dbg := dbg) (p := p) (inp := inp) fuel
  rw [e, keyDigests, List.countP_append]
  have h3 := (hash_counts h2).2.2
  have h4 := h1.digests
  unfold keyDigests at h3 h4
  omega

/-- **C80, NSEC3:** at most two times 2501 SHA-1 computations for each RRSIG verified (CVE-2023-50868 is about proofs that need many). -/
theorem C80_hashes_partial (fuel : Nat) : nsec3Hashes (verifyRRStreamE dbg p fuel inp).ops ≤ 5002 * (fuel * sigCount inp) := by
  obtain ⟨a, b, e, h1, _, _, h3, h2⟩ := ops_split (dbg := dbg) (p := p) (inp := inp) fuel
  rw [e, nsec3Hashes, List.countP_append]
  have h4 := h1.hashes
  have h5 : nsec3Hashes b ≤ b.length := List.countP_le_length
  unfold nsec3Hashes at h4 h5
  rw [h4, Nat.zero_add, Nat.mul_comm]
  exact Nat.le_trans h5 h3

/-- **C80.** Signatures are checked, and digests computed, only with keys of zones that the chain of trust leads to: those over key sets
with keys that an authenticated DS record (or root anchor) vouches for, others with keys of an authenticated key set. Whoever cannot
get a DS record signed cannot cause any other work. -/
theorem C80_warranted (fuel : Nat) (op : CryptoOp) (h : op ∈ (verifyRRStreamE dbg p fuel inp).ops) : Warranted p inp op := by
  obtain ⟨a, b, e, h1, _, _, _, h2⟩ := ops_split (dbg := dbg) (p := p) (inp := inp) fuel
  rw [e] at h
  rcases List.mem_append.mp h with h | h
  · exact h1.warranted op h
  · obtain ⟨_, rfl⟩ := h2 op h
    trivial

/-- **C80.** A bad signature is the last thing looked at. -/
theorem C80_stops (fuel : Nat) (pre post : List CryptoOp) (op : CryptoOp)
    (h : (verifyRRStreamE dbg p fuel inp).ops = pre ++ op :: post) (hb : Bad p op) : post = [] := by
  obtain ⟨a, b, e, _, h1, h3, _, h2⟩ := ops_split (dbg := dbg) (p := p) (inp := inp) fuel
  have h2' : NoBad p b := by
    intro op ho
    obtain ⟨_, rfl⟩ := h2 op ho
    exact id
  have hs : Stops p (a ++ b) := by
    rcases h3 with rfl | h3
    · rw [List.append_nil]; exact h1
    · exact Stops.append h3 h2'.stops
  exact hs pre op post (by rw [← e]; exact h) hb

/-- The operations for `wStream`: root key, root's and c.'s signatures. -/
example : (verifyRRStreamE true wPlatform 2 wStream).res = some (.ok ⟨[wA "a.c."], 1000000000, 2000000000, 3600⟩) ∧
    signatureChecks (verifyRRStreamE true wPlatform 2 wStream).ops = 4 ∧ keyDigests (verifyRRStreamE true wPlatform 2 wStream).ops = 2 ∧
    sigCount wStream = 4 ∧ keyCount wStream = 2 := by decide +kernel

/-- **C80 is false** if it is to mean that each signature is checked at most once: a zone with delegations from two others is looked at
twice. -/
theorem C80_fails_checked_twice (dbg : Bool) : ∃ s, (verifyRRStreamE dbg wPlatform 4 (eInput 2)).res ≠ none ∧
    (eInput 2).count (.rrsig s) = 1 ∧ checksOf s (verifyRRStreamE dbg wPlatform 4 (eInput 2)).ops = 2 :=
  ⟨eSig 2 48 2, by cases dbg <;> decide +kernel⟩

theorem ops_mono {fuel fuel' : Nat} (h : fuel ≤ fuel') (hn : verifyRRStream dbg p fuel inp = none) :
    fuel ≤ signatureChecks (verifyRRStreamE dbg p fuel' inp).ops := by
  have h0 : (zoneLoopE dbg p inp fuel [dot] VState.init).res = none := by
    rw [← verifyRRStreamE_res, verifyRRStreamE] at hn
    simp only at hn
    split at hn
    · assumption
    · simp at hn
    · cases hn
    · cases hn
  have h1 := zoneLoopE_each h0
  have h2 : (zoneLoopE dbg p inp fuel [dot] VState.init).ops <+: (verifyRRStreamE dbg p fuel' inp).ops := by
    refine (zoneLoopE_prefix h).trans ?_
    rw [verifyRRStreamE]
    simp only
    split
    · exact List.prefix_refl _
    · exact List.prefix_append _ _
    · exact List.prefix_refl _
    · exact List.prefix_refl _
  exact Nat.le_trans h1 (h2.sublist.countP_le)

/-- **C80 is false** if it is to mean a polynomial number: for every `n` up to the longest possible name, fewer than `(n + 3)^2` records
make a verification that ends check `2^n - 1` signatures. -/
theorem C80_fails_exponential (dbg : Bool) (n fuel : Nat) (h1 : 1 ≤ n) (hn : n ≤ 127)
    (hf : verifyRRStream dbg wPlatform fuel (eInput n) ≠ none) : (eInput n).length ≤ (n + 3) * (n + 3) ∧
    2 ^ n - 1 ≤ signatureChecks (verifyRRStreamE dbg wPlatform fuel (eInput n)).ops := by
  obtain ⟨h2, h3⟩ := C55_fails_exponential dbg n h1 hn
  have h4 : 2 ^ n ≤ fuel := Nat.le_of_not_lt fun h => hf ((h3 fuel).mpr h)
  have h5 : 0 < 2 ^ n := Nat.two_pow_pos n
  exact ⟨h2, ops_mono (by omega) ((h3 _).mpr (by omega))⟩

/-- It does end, with enough fuel. -/
example : verifyRRStream true wPlatform (2 ^ 121) (eInput 121) ≠ none := fun h =>
  Nat.lt_irrefl _ (((C55_fails_exponential true 121 (by omega) (by omega)).2 _).mp h)

/-- **C80.** The work of a verification in terms of the records alone: with `n` records there are at most `(n + 1)^L` visits (C55), so
that, however long it may run, there is a result and the operations are bounded. -/
theorem C80_total_partial {L : Nat} (hlen : ∀ s, RR.rrsig s ∈ inp → s.name.bytes.length ≤ L)
    (h1 : RootDelegates (codeCheck p) inp) (h2 : ¬ SelfDelegation (codeCheck p) p inp) :
    ∃ r ops, (∀ fuel, (inp.length + 1) ^ L ≤ fuel → verifyRRStreamE dbg p fuel inp = ⟨some r, ops⟩) ∧
      signatureChecks ops ≤ (inp.length + 1) ^ L * sigCount inp ∧
      keyDigests ops ≤ (inp.length + 1) ^ L * (keyCount inp * max 2 (dsCount inp)) ∧
      nsec3Hashes ops ≤ 5002 * ((inp.length + 1) ^ L * sigCount inp) := by
  have h3 := C55_bound_partial (dbg := dbg) hlen h1 h2
  rw [← C80_same_result] at h3
  have h4 := (C80_signatures_partial (dbg := dbg) (p := p) (inp := inp) ((inp.length + 1) ^ L)).1
  have h5 := C80_digests_partial (dbg := dbg) (p := p) (inp := inp) ((inp.length + 1) ^ L)
  have h6 := C80_hashes_partial (dbg := dbg) (p := p) (inp := inp) ((inp.length + 1) ^ L)
  have hs := fun fuel (hf : (inp.length + 1) ^ L ≤ fuel) => verifyRRStreamE_stable hf h3
  generalize verifyRRStreamE dbg p ((inp.length + 1) ^ L) inp = t at h3 h4 h5 h6 hs
  obtain ⟨r, ops⟩ := t
  cases r with
  | none => exact absurd rfl h3
  | some r => exact ⟨r, ops, hs, h4, h5, h6⟩

/-- A wrong signature over the delegation to `c.`, before a good one. -/
def badStream : List RR :=
  wZone "." 0 ++ [wDs "c.", wSigWith 8 [2] "c." 43 1 ".", wSig "c." 43 1 "."] ++ wZone "c." 1

/-- It is the last thing looked at. -/
example : (verifyRRStreamE true wPlatform 5 badStream).res = some (.err .invalid) ∧
    (verifyRRStreamE true wPlatform 5 badStream).ops.length = 3 ∧ sigCount badStream = 4 := by decide +kernel

/-- Without a delegation nothing is done about `c.`, whatever is signed there: the five operations are those for `.` and `b.`. -/
example : (verifyRRStreamE true wPlatform 5
      (wZone "." 0 ++ wZone "c." 1 ++ wDelegation "." "b." 1 ++ [wA "a.c.", wSig "a.c." 1 2 "c."])).ops.length = 5 := by
  decide +kernel

end Dnssec.Props
