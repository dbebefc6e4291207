import Verif.Proofs.Trace
import Verif.Props.Crypto
import Verif.Props.Denials
import Verif.Props.Chain

/-! # C80: the operations listed are all there are, and what the NSEC3 hashes are of -/

namespace Dnssec.Props

open Dnssec Spec

variable {dbg : Bool} {p p' : Platform} {inp : List RR}

/-- **C80.** No operation is missing from the list: another implementation of the primitives that gives the same answers to the
operations listed makes verification take the same course, whatever it does otherwise (`sortNeeds` is the sorting function, not
cryptography). In particular the result is the same. -/
theorem C80_all_listed (hs : p'.sortNeeds = p.sortNeeds) (fuel : Nat)
    (h : ∀ op ∈ (verifyRRStreamE dbg p fuel inp).ops, SameAnswer p p' op) :
    verifyRRStreamE dbg p' fuel inp = verifyRRStreamE dbg p fuel inp ∧ verifyRRStream dbg p' fuel inp = verifyRRStream dbg p fuel inp := by
  have h1 := verifyRRStreamE_same hs fuel h
  exact ⟨h1, by rw [← C80_same_result, ← C80_same_result, h1]⟩

theorem hashIter_rounds (salt : Bytes) (name : Bytes) : ∀ (k j : Nat) (op : CryptoOp),
    op ∈ (nsec3HashIterE p salt k (iteratedHash p.sha1 salt (nameWire name) j)).ops →
    ∃ i, j ≤ i ∧ i < j + k ∧ op = .hash (iteratedHash p.sha1 salt (nameWire name) i ++ salt)
  | 0, j, op, h => by simp [nsec3HashIterE] at h
  | k + 1, j, op, h => by
    rw [nsec3HashIterE] at h
    rcases List.mem_cons.mp h with rfl | h
    · exact ⟨j, Nat.le_refl _, by omega, rfl⟩
    · obtain ⟨i, h1, h2, h3⟩ := hashIter_rounds salt name k (j + 1) op h
      exact ⟨i, by omega, by omega, h3⟩

theorem hash_rounds (n : NSec3) (name : Bytes) (op : CryptoOp) (h : op ∈ (nsec3HashE p name n.salt n.hashIterations).ops) :
    ∃ i, i ≤ n.hashIterations.toNat ∧ op = .hash (roundInput p n name i) := by
  rw [nsec3HashE, writeName_eq_nameWire] at h
  rcases List.mem_cons.mp h with rfl | h
  · exact ⟨0, Nat.zero_le _, rfl⟩
  · obtain ⟨i, _, h2, h3⟩ := hashIter_rounds n.salt name _ 0 op h
    exact ⟨i + 1, by omega, h3⟩

theorem params_rounds (name : Bytes) : ∀ ns acc (op : CryptoOp), op ∈ (nsec3ParamsE p name ns acc).ops →
    ∃ n ∈ ns, n.hashAlgo = 1 ∧ n.hashIterations.toNat ≤ 2500 ∧ ∃ i, i ≤ n.hashIterations.toNat ∧ op = .hash (roundInput p n name i)
  | [], _, op, h => by simp [nsec3ParamsE] at h
  | n :: ns, acc, op, h => by
    have hcons : ∀ acc, op ∈ (nsec3ParamsE p name ns acc).ops → ∃ m ∈ n :: ns, m.hashAlgo = 1 ∧ m.hashIterations.toNat ≤ 2500 ∧
        ∃ i, i ≤ m.hashIterations.toNat ∧ op = .hash (roundInput p m name i) := by
      intro acc h
      obtain ⟨m, hm, h⟩ := params_rounds name ns acc op h
      exact ⟨m, List.mem_cons_of_mem _ hm, h⟩
    rw [nsec3ParamsE] at h
    split at h
    · exact hcons _ h
    · rename_i hi
      have hi' : n.hashIterations.toNat ≤ 2500 := UInt16.le_iff_toNat_le.mp (UInt16.not_lt.mp hi)
      split at h
      · exact hcons _ h
      · rename_i ha
        split at h
        · exact hcons _ h
        · simp only at h
          split at h
          · exact ⟨n, List.mem_cons_self .., Classical.not_not.mp ha, hi', hash_rounds n name op h⟩
          · rcases List.mem_append.mp h with h | h
            · exact ⟨n, List.mem_cons_self .., Classical.not_not.mp ha, hi', hash_rounds n name op h⟩
            · exact hcons _ h

theorem proof_rounds (res : List RR) : ∀ fuel needs (op : CryptoOp), op ∈ (proofLoopE p res fuel needs).ops →
    ∃ need ∈ needs, ∃ n ∈ nsec3Search res need.zone, n.hashAlgo = 1 ∧ n.hashIterations.toNat ≤ 2500 ∧
      ∃ i, i ≤ n.hashIterations.toNat ∧ op = .hash (roundInput p n need.name i)
  | 0, needs, op, h => by cases needs <;> simp [proofLoopE] at h
  | _ + 1, [], op, h => by simp [proofLoopE] at h
  | fuel + 1, need :: rest, op, h => by
    have hrec : ∀ q, op ∈ (proofLoopE p res fuel (rest.filter q)).ops → ∃ nd ∈ need :: rest, ∃ n ∈ nsec3Search res nd.zone,
        n.hashAlgo = 1 ∧ n.hashIterations.toNat ≤ 2500 ∧ ∃ i, i ≤ n.hashIterations.toNat ∧ op = .hash (roundInput p n nd.name i) := by
      intro q h
      obtain ⟨nd, hnd, h⟩ := proof_rounds res fuel _ op h
      exact ⟨nd, List.mem_cons_of_mem _ (List.mem_filter.mp hnd).1, h⟩
    have hhere : op ∈ (nsec3ParamsE p need.name (nsec3Search res need.zone) []).ops → ∃ nd ∈ need :: rest, ∃ n ∈ nsec3Search res nd.zone,
        n.hashAlgo = 1 ∧ n.hashIterations.toNat ≤ 2500 ∧ ∃ i, i ≤ n.hashIterations.toNat ∧ op = .hash (roundInput p n nd.name i) :=
      fun h => ⟨need, List.mem_cons_self .., params_rounds need.name _ [] op h⟩
    rw [proofLoopE] at h
    split at h
    · exact hrec _ h
    · simp only at h
      split at h
      · rcases List.mem_append.mp h with h | h
        · exact hhere h
        · exact hrec _ h
      · exact hhere h

/-- **C80.** NSEC3 hashes are computed only for the next closer names of wildcard expansions by a zone that the chain of trust leads to,
and with the parameters of an authenticated NSEC3 record from below that zone, of the one known algorithm and with at most 2500
iterations. -/
theorem C80_hash_warranted (fuel : Nat) (x : Bytes) (h : .hash x ∈ (verifyRRStreamE dbg p fuel inp).ops) :
    ∃ z name n i, Expands (codeCheck p) p inp z name ∧ Authenticated (codeCheck p) p inp (.nsec3 n) ∧ (∃ pre, n.name.bytes = pre ++ z.bytes) ∧
      n.hashAlgo = 1 ∧ n.hashIterations.toNat ≤ 2500 ∧ i ≤ n.hashIterations.toNat ∧ x = roundInput p n name i := by
  have hz0 : CryptoOp.hash x ∉ (zoneLoopE dbg p inp fuel [dot] VState.init).ops := by
    intro hm
    have hw := (zoneLoopE_work (dbg := dbg) (p := p) (inp := inp) fuel (zone := [dot]) (Inv.init dbg p inp)).1.hashes
    rw [nsec3Hashes, List.countP_eq_zero] at hw
    exact hw _ hm rfl
  rw [verifyRRStreamE] at h
  simp only at h
  split at h
  · exact absurd h hz0
  · rename_i st hst
    rcases List.mem_append.mp h with h | h
    · exact absurd h hz0
    · rw [zoneLoopE_res] at hst
      have hF := zoneLoop_final hst
      have hp : CryptoOp.hash x ∈ (proofLoopE p st.res (p.sortNeeds st.needs).reverse.length (p.sortNeeds st.needs).reverse).ops := by
        rw [finishVerifyE] at h
        split at h
        · simp at h
        · split at h
          · simp at h
          · simp only at h
            split at h <;> exact h
      obtain ⟨need, hneed, n, hn, h1, h2, i, h3, h4⟩ := proof_rounds _ _ _ _ hp
      rw [List.mem_reverse, (p.sortNeeds_perm st.needs).mem_iff, hF.eff.needs] at hneed
      obtain ⟨s, ⟨z, hz, hs⟩, hd, hx, hzo, _, hname⟩ := hneed
      have hkn : s.keyName = z := (mem_sigsBy.mp hs.1).2.1
      rw [hzo, hkn] at hn
      obtain ⟨hn1, hn2⟩ := mem_nsec3Search.mp hn
      have hauth : Authenticated (codeCheck p) p inp (.nsec3 n) := by
        obtain ⟨s', ⟨z', hz', hs'⟩, _, hx'⟩ := (hF.eff.res _).mp hn1
        obtain ⟨a, b, c⟩ := mem_rrset.mp hx'
        obtain ⟨ksig, hk⟩ := hF.keys z' hz'
        exact ⟨z', ksig, s', hz', hk, hs', a, b, c⟩
      exact ⟨z, need.name, n, i, ⟨s, hz, hs, hd, hx, hname⟩, hauth, (endsWith_iff _ _).mp hn2, h1, h2, h3, CryptoOp.hash.inj h4⟩
  · exact absurd h hz0
  · exact absurd h hz0

/-- A platform that differs from the other one in the SHA-1 hashes of all but one input, and in what keys of another algorithm it accepts. -/
def oddPlatform : Platform :=
  { wPlatform with
    sha1 := fun b => if b = nameWire (ascii "x.c.") then wPlatform.sha1 b else [1, 2, 3]
    ed25519 := fun _ _ _ => true }

/-- The list of operations has what is needed to see that both do the same with a proof with an NSEC3 record: no SHA-1 digests of keys, no
signature of that algorithm, and one hash (which is that of the next closer name). -/
example : let inp := chain3Stream (twoHashes "f4000000000000000000000000000000" 121)
    (verifyRRStreamE true wPlatform 5 inp).res = some (.ok ⟨[wA "x.c."], 1000000000, 2000000000, 3600⟩) ∧
    nsec3Hashes (verifyRRStreamE true wPlatform 5 inp).ops = 1 ∧ .hash (nameWire (ascii "x.c.")) ∈ (verifyRRStreamE true wPlatform 5 inp).ops ∧
    oddPlatform.sortNeeds = wPlatform.sortNeeds ∧ ∀ op ∈ (verifyRRStreamE true wPlatform 5 inp).ops, SameAnswer wPlatform oddPlatform op := by
  refine ⟨by decide +kernel, by decide +kernel, by decide +kernel, rfl, ?_⟩
  have h : ∀ op ∈ (verifyRRStreamE true wPlatform 5 (chain3Stream (twoHashes "f4000000000000000000000000000000" 121))).ops,
      (match op with
        | .verify s _ _ => decide (s.alg = 8)
        | .digest _ d => decide (d.digestType = 2)
        | .hash x => decide (x = nameWire (ascii "x.c."))) = true := by decide +kernel
  intro op ho
  have h := h op ho
  cases op with
  | verify s k msg =>
    have h : s.alg = 8 := of_decide_eq_true h
    show CryptoOk wPlatform s.alg _ _ _ ↔ CryptoOk oddPlatform s.alg _ _ _
    rw [h]
    constructor <;>
    · intro hc
      cases hc with
      | rsaSha256 n e _ h2 h3 h4 h5 => exact .rsaSha256 n e rfl h2 h3 h4 h5
      | rsaSha512 n e h1 => exact absurd h1 (by decide)
      | ecdsaP256 h1 => exact absurd h1 (by decide)
      | ecdsaP384 h1 => exact absurd h1 (by decide)
      | ed25519 h1 => exact absurd h1 (by decide)
  | digest k d =>
    have h : d.digestType = 2 := of_decide_eq_true h
    exact ⟨fun h1 => by rw [h] at h1; exact absurd h1 (by decide), fun _ => rfl⟩
  | hash x =>
    have h : x = nameWire (ascii "x.c.") := of_decide_eq_true h
    subst h
    show wPlatform.sha1 _ = oddPlatform.sha1 _
    simp only [oddPlatform, if_true]

end Dnssec.Props
