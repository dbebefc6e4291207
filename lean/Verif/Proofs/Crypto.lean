import Verif.Spec.Crypto
import Verif.Proofs.ZoneLoop

/-! # The cryptographic operations of verification -/

namespace Dnssec

open Spec

variable {dbg : Bool} {p : Platform} {inp : List RR}

/-! ### The list does not change the result -/

theorem checkSigE_res (sig : RRSig) (k : DnsKey) (msg : Bytes) : (checkSigE p sig k msg).res = checkSig p sig k msg := by
  unfold checkSigE checkSig
  simp only
  by_cases h1 : sig.alg = 8 ∨ sig.alg = 10
  · rw [if_pos h1, if_pos h1]
    cases bytesToRsaPk k.pubkey with
    | none => rfl
    | some v => rfl
  · rw [if_neg h1, if_neg h1]
    by_cases h2 : sig.alg = 13 ∨ sig.alg = 14
    · rw [if_pos h2, if_pos h2]
    · rw [if_neg h2, if_neg h2]
      by_cases h3 : sig.alg = 15
      · rw [if_pos h3, if_pos h3]
      · rw [if_neg h3, if_neg h3]

theorem verifyKeysLoopE_res (sig : RRSig) (records : List RR) : ∀ keys,
    (verifyKeysLoopE p sig records keys).res = verifyKeysLoop p sig records keys
  | [] => rfl
  | k :: ks => by
    rw [verifyKeysLoopE, verifyKeysLoop]
    split
    · cases signedData sig records with
      | none => rfl
      | some msg => exact checkSigE_res sig k msg
    · exact verifyKeysLoopE_res sig records ks

theorem verifyRrsigE_res (sig : RRSig) (keys : List DnsKey) (records : List RR) :
    (verifyRrsigE p sig keys records).res = verifyRrsig p sig keys records := by
  unfold verifyRrsigE verifyRrsig
  split
  · rfl
  · exact verifyKeysLoopE_res sig records keys

theorem dsLoopE_res (all : List DS) (k : DnsKey) : ∀ dses, (dsLoopE p all k dses).res = dses.any (dsMatches p all k)
  | [] => rfl
  | ds :: dses => by
    rw [dsLoopE, List.any_cons, ← dsLoopE_res all k dses]
    simp only [dsMatches]
    by_cases h : (ds.alg == k.alg && k.computeKeyTag == ds.keyTag) = true
    · rw [if_pos h, h, Bool.true_and]
      by_cases h1 : ds.digestType = 1 ∧ trustSha1 all
      · rw [if_pos h1, if_pos h1]
        cases hh : p.sha1 (dsHashInput k) == ds.digest <;> simp
      · rw [if_neg h1, if_neg h1]
        by_cases h2 : ds.digestType = 2
        · rw [if_pos h2, if_pos h2]
          cases hh : p.sha256 (dsHashInput k) == ds.digest <;> simp
        · rw [if_neg h2, if_neg h2, Bool.false_or]
    · rw [if_neg h, (Bool.not_eq_true _).mp h, Bool.false_and, Bool.false_or]

theorem validatedKeysE_res (dses : List DS) : ∀ keys, (validatedKeysE p dses keys).res = validatedKeys p dses keys
  | [] => rfl
  | k :: ks => by
    rw [validatedKeysE, validatedKeys, List.filter_cons]
    simp only [dsLoopE_res, validatedKeysE_res dses ks]
    rfl

theorem dnskeySigLoopE_res (validated records : List DnsKey) : ∀ sigs b,
    (dnskeySigLoopE p validated records sigs b).res = dnskeySigLoop p validated records sigs b
  | [], _ => rfl
  | sig :: sigs, _ => by
    rw [dnskeySigLoopE, dnskeySigLoop]
    simp only [verifyRrsigE_res]
    cases verifyRrsig p sig validated (records.map RR.dnskey) with
    | ok u => rfl
    | panic => rfl
    | err e =>
      cases e with
      | invalid => rfl
      | unsupported => exact dnskeySigLoopE_res validated records sigs true

theorem verifyDnskeysE_res (sigs : List RRSig) (dses : List DS) (records : List DnsKey) :
    (verifyDnskeysE p sigs dses records).res = verifyDnskeys p sigs dses records := by
  unfold verifyDnskeysE verifyDnskeys
  split
  · rfl
  · split
    · rfl
    · simp only [dnskeySigLoopE_res, validatedKeysE_res]

theorem sigLoopE_res (zone : Bytes) : ∀ sigs st, (sigLoopE dbg p inp zone sigs st).res = sigLoop dbg p inp zone sigs st
  | [], _ => rfl
  | sig :: sigs, st => by
    rw [sigLoopE, sigLoop]
    split
    · rfl
    · simp only [verifyRrsigE_res]
      cases verifyRrsig p sig (zoneKeys inp zone) (coveredRecords inp sig) with
      | panic => rfl
      | ok u =>
        simp only
        cases acceptSig dbg inp sig (st.note sig) with
        | ok st => exact sigLoopE_res zone sigs st
        | err e => rfl
        | panic => rfl
      | err e =>
        cases e with
        | invalid => rfl
        | unsupported => exact sigLoopE_res zone sigs st

theorem doZoneE_res (zone : Bytes) (dses : List DS) (st : VState) :
    (doZoneE dbg p inp zone dses st).res = doZone dbg p inp zone dses st := by
  unfold doZoneE doZone
  simp only [verifyDnskeysE_res]
  cases verifyDnskeys p (dnskeyRrsigs inp zone) (if zone = [dot] then rootHints else dses) (zoneKeys inp zone) with
  | ok sig => exact sigLoopE_res _ _ _
  | err e => rfl
  | panic => rfl

theorem zoneLoopE_res : ∀ (fuel : Nat) (zone : Bytes) (st : VState),
    (zoneLoopE dbg p inp fuel zone st).res = zoneLoop dbg p inp fuel zone st
  | 0, zone, st => by
    rw [zoneLoopE, zoneLoop]
    split <;> rfl
  | fuel + 1, zone, st => by
    rw [zoneLoopE, zoneLoop]
    split
    · simp only [doZoneE_res]
      cases st.pending with
      | nil =>
        simp only
        cases doZone dbg p inp zone [] st with
        | ok st => exact zoneLoopE_res fuel zone st
        | err e => rfl
        | panic => rfl
      | cons e rest =>
        simp only
        cases doZone dbg p inp e.1.bytes e.2 { st with pending := rest } with
        | ok st => exact zoneLoopE_res fuel _ st
        | err e => rfl
        | panic => rfl
    · rfl

theorem nsec3HashIterE_res (salt : Bytes) : ∀ n h, (nsec3HashIterE p salt n h).res = nsec3HashIter p salt n h
  | 0, _ => rfl
  | n + 1, h => by rw [nsec3HashIterE, nsec3HashIter, ← nsec3HashIterE_res salt n]

theorem nsec3HashE_res (name salt : Bytes) (it : UInt16) : (nsec3HashE p name salt it).res = nsec3Hash p name salt it := by
  rw [nsec3HashE, nsec3Hash, ← nsec3HashIterE_res]

theorem nsec3ParamsE_res (name : Bytes) : ∀ ns acc, (nsec3ParamsE p name ns acc).res = nsec3Params p name ns acc
  | [], _ => rfl
  | n :: ns, acc => by
    rw [nsec3ParamsE, nsec3Params]
    split
    · exact nsec3ParamsE_res name ns acc
    · split
      · exact nsec3ParamsE_res name ns acc
      · split
        · exact nsec3ParamsE_res name ns acc
        · simp only [nsec3HashE_res]
          split
          · rfl
          · exact nsec3ParamsE_res name ns _

theorem proofLoopE_res (res : List RR) : ∀ fuel needs, (proofLoopE p res fuel needs).res = proofLoop p res fuel needs
  | 0, needs => by cases needs <;> rfl
  | _ + 1, [] => rfl
  | fuel + 1, need :: rest => by
    rw [proofLoopE, proofLoop]
    cases (nsecSearch res need.zone).find? (nsecProves need) with
    | some n => exact proofLoopE_res res fuel _
    | none =>
      simp only [nsec3ParamsE_res]
      cases (nsec3Search res need.zone).find? (nsec3Proves need (nsec3Params p need.name (nsec3Search res need.zone) [])) with
      | some n => exact proofLoopE_res res fuel _
      | none => rfl

theorem finishVerifyE_res (st : VState) : (finishVerifyE p st).res = finishVerify p st := by
  unfold finishVerifyE finishVerify
  split
  · rfl
  · split
    · rfl
    · simp only [proofLoopE_res]
      cases proofLoop p st.res (p.sortNeeds st.needs).reverse.length (p.sortNeeds st.needs).reverse <;> rfl

theorem verifyRRStreamE_res (fuel : Nat) : (verifyRRStreamE dbg p fuel inp).res = verifyRRStream dbg p fuel inp := by
  unfold verifyRRStreamE verifyRRStream
  simp only [zoneLoopE_res]
  cases zoneLoop dbg p inp fuel [dot] VState.init with
  | none => rfl
  | some r =>
    cases r with
    | ok st => simp only [finishVerifyE_res]
    | err e => rfl
    | panic => rfl

/-! ### Which operations there are -/

theorem checkSigE_ops (sig : RRSig) (k : DnsKey) (msg : Bytes) :
    (checkSigE p sig k msg).ops = [] ∨
    ((checkSigE p sig k msg).ops = [.verify sig k msg] ∧ (checkSigE p sig k msg).res ≠ .err .unsupported) := by
  unfold checkSigE
  simp only
  have hv : ∀ b : Bool, (if b then .ok () else .err .invalid : Res VErr Unit) ≠ .err .unsupported := by
    intro b; cases b <;> simp
  by_cases h1 : sig.alg = 8 ∨ sig.alg = 10
  · rw [if_pos h1]
    cases bytesToRsaPk k.pubkey with
    | none => exact Or.inl rfl
    | some v => exact Or.inr ⟨rfl, hv _⟩
  · rw [if_neg h1]
    by_cases h2 : sig.alg = 13 ∨ sig.alg = 14
    · rw [if_pos h2]
      exact Or.inr ⟨rfl, hv _⟩
    · rw [if_neg h2]
      by_cases h3 : sig.alg = 15
      · rw [if_pos h3]
        exact Or.inr ⟨rfl, hv _⟩
      · rw [if_neg h3]
        exact Or.inl rfl

/-- One call of `verify_rrsig` performs no operation, or one signature check with an eligible key. -/
theorem verifyKeysLoopE_ops (sig : RRSig) (records : List RR) : ∀ keys,
    (verifyKeysLoopE p sig records keys).ops = [] ∨
    ∃ k ∈ keys, Eligible sig k ∧ ∃ msg, (verifyKeysLoopE p sig records keys).ops = [.verify sig k msg] ∧
      (verifyKeysLoopE p sig records keys).res ≠ .err .unsupported ∧
      ((verifyKeysLoopE p sig records keys).res = .ok () → CryptoOk p sig.alg k.pubkey msg sig.signature)
  | [] => Or.inl rfl
  | k :: ks => by
    rw [verifyKeysLoopE]
    by_cases he : keyEligible sig k = true
    · rw [if_pos he]
      cases signedData sig records with
      | none => exact Or.inl rfl
      | some msg =>
        rcases checkSigE_ops (p := p) sig k msg with h | ⟨h1, h2⟩
        · exact Or.inl h
        · refine Or.inr ⟨k, by simp, (keyEligible_iff sig k).mp he, msg, h1, h2, fun h => ?_⟩
          rw [← checkSig_ok_iff, ← checkSigE_res]
          exact h
    · rw [if_neg he]
      rcases verifyKeysLoopE_ops sig records ks with h | ⟨k', h1, h2⟩
      · exact Or.inl h
      · exact Or.inr ⟨k', by simp [h1], h2⟩

theorem verifyRrsigE_ops (sig : RRSig) (keys : List DnsKey) (records : List RR) :
    (verifyRrsigE p sig keys records).ops = [] ∨
    ∃ k ∈ keys, Eligible sig k ∧ ∃ msg, (verifyRrsigE p sig keys records).ops = [.verify sig k msg] ∧
      (verifyRrsigE p sig keys records).res ≠ .err .unsupported ∧
      ((verifyRrsigE p sig keys records).res = .ok () → CryptoOk p sig.alg k.pubkey msg sig.signature) := by
  rw [verifyRrsigE]
  split
  · exact Or.inl rfl
  · exact verifyKeysLoopE_ops sig records keys

theorem dsLoopE_ops (all : List DS) (k : DnsKey) : ∀ dses, (dsLoopE p all k dses).ops.length ≤ dses.length ∧
    ∀ op ∈ (dsLoopE p all k dses).ops, ∃ d ∈ dses, op = .digest k d ∧ d.alg = k.alg ∧ d.keyTag.toNat = keyTag (rdata (.dnskey k))
  | [] => ⟨Nat.le_refl 0, by simp [dsLoopE]⟩
  | ds :: dses => by
    obtain ⟨i1, i2⟩ := dsLoopE_ops all k dses
    have i2' : ∀ op ∈ (dsLoopE p all k dses).ops, ∃ d ∈ ds :: dses, op = .digest k d ∧ d.alg = k.alg ∧
        d.keyTag.toNat = keyTag (rdata (.dnskey k)) := by
      intro op h
      obtain ⟨d, hd, h⟩ := i2 op h
      exact ⟨d, by simp [hd], h⟩
    rw [dsLoopE]
    simp only
    by_cases h : (ds.alg == k.alg && k.computeKeyTag == ds.keyTag) = true
    · rw [if_pos h]
      rw [Bool.and_eq_true, beq_iff_eq, beq_iff_eq] at h
      have h0 : ∃ d ∈ ds :: dses, CryptoOp.digest k ds = .digest k d ∧ d.alg = k.alg ∧ d.keyTag.toNat = keyTag (rdata (.dnskey k)) :=
        ⟨ds, by simp, rfl, h.1, by rw [← h.2, keyTag_eq]⟩
      have hc : ∀ x : Bytes,
          (if (x == ds.digest) = true then (⟨true, [.digest k ds]⟩ : Traced Bool)
            else ⟨(dsLoopE p all k dses).res, .digest k ds :: (dsLoopE p all k dses).ops⟩).ops.length ≤ (ds :: dses).length ∧
          ∀ op ∈ (if (x == ds.digest) = true then (⟨true, [.digest k ds]⟩ : Traced Bool)
            else ⟨(dsLoopE p all k dses).res, .digest k ds :: (dsLoopE p all k dses).ops⟩).ops,
            ∃ d ∈ ds :: dses, op = .digest k d ∧ d.alg = k.alg ∧ d.keyTag.toNat = keyTag (rdata (.dnskey k)) := by
        intro x
        split
        · refine ⟨by simp, ?_⟩
          intro op ho
          rw [List.mem_singleton] at ho
          subst ho
          exact h0
        · refine ⟨by simpa using i1, ?_⟩
          intro op ho
          rcases List.mem_cons.mp ho with rfl | ho
          · exact h0
          · exact i2' op ho
      split
      · exact hc _
      · split
        · exact hc _
        · exact ⟨Nat.le_succ_of_le i1, i2'⟩
    · rw [if_neg h]
      exact ⟨Nat.le_succ_of_le i1, i2'⟩

theorem validatedKeysE_ops (dses : List DS) : ∀ keys, (validatedKeysE p dses keys).ops.length ≤ keys.length * dses.length ∧
    ∀ op ∈ (validatedKeysE p dses keys).ops, ∃ k ∈ keys, ∃ d ∈ dses, op = .digest k d ∧ d.alg = k.alg ∧
      d.keyTag.toNat = keyTag (rdata (.dnskey k))
  | [] => ⟨by simp [validatedKeysE], by simp [validatedKeysE]⟩
  | k :: ks => by
    obtain ⟨i1, i2⟩ := validatedKeysE_ops dses ks
    obtain ⟨j1, j2⟩ := dsLoopE_ops (p := p) dses k dses
    rw [validatedKeysE]
    simp only [List.length_append, List.length_cons, Nat.succ_mul]
    refine ⟨by omega, ?_⟩
    intro op ho
    rcases List.mem_append.mp ho with ho | ho
    · obtain ⟨d, h⟩ := j2 op ho
      exact ⟨k, by simp, d, h⟩
    · obtain ⟨k', hk, h⟩ := i2 op ho
      exact ⟨k', by simp [hk], h⟩

/-- The signature checks of a loop over `sigs` with `keys`: each at most once, in particular. -/
structure Checks (sigs : List RRSig) (keys : List DnsKey) (ops : List CryptoOp) : Prop where
  length : ops.length ≤ sigs.length
  each : ∀ s, checksOf s ops ≤ sigs.count s
  mem : ∀ op ∈ ops, ∃ s ∈ sigs, ∃ k ∈ keys, ∃ msg, op = .verify s k msg ∧ Eligible s k

theorem Checks.nil (sigs : List RRSig) (keys : List DnsKey) : Checks sigs keys [] :=
  ⟨Nat.zero_le _, fun _ => Nat.zero_le _, by simp⟩

theorem checksOf_append (s : RRSig) (a b : List CryptoOp) : checksOf s (a ++ b) = checksOf s a + checksOf s b :=
  List.countP_append

theorem Checks.cons (sig : RRSig) {records : List RR} {sigs : List RRSig} {keys : List DnsKey} {ops : List CryptoOp}
    (h : Checks sigs keys ops) : Checks (sig :: sigs) keys ((verifyRrsigE p sig keys records).ops ++ ops) := by
  rcases verifyRrsigE_ops (p := p) sig keys records with h0 | ⟨k, hk, he, msg, h0, _⟩
  · rw [h0, List.nil_append]
    refine ⟨Nat.le_succ_of_le h.length, fun s => Nat.le_trans (h.each s) List.count_le_count_cons, ?_⟩
    intro op ho
    obtain ⟨s, hs, r⟩ := h.mem op ho
    exact ⟨s, by simp [hs], r⟩
  · rw [h0]
    refine ⟨by simpa using h.length, fun s => ?_, ?_⟩
    · rw [checksOf_append, List.count_cons]
      have := h.each s
      have : checksOf s [.verify sig k msg] = if (sig == s) = true then 1 else 0 := by
        unfold checksOf
        by_cases e : sig = s <;> simp [e]
      omega
    · intro op ho
      rcases List.mem_cons.mp ho with rfl | ho
      · exact ⟨sig, by simp, k, hk, msg, rfl, he⟩
      · obtain ⟨s, hs, r⟩ := h.mem op ho
        exact ⟨s, by simp [hs], r⟩

theorem Checks.one (sig : RRSig) {records : List RR} {sigs : List RRSig} {keys : List DnsKey} :
    Checks (sig :: sigs) keys (verifyRrsigE p sig keys records).ops := by
  have := (Checks.nil sigs keys).cons (p := p) sig (records := records)
  rwa [List.append_nil] at this

theorem dnskeySigLoopE_checks (validated records : List DnsKey) : ∀ sigs b,
    Checks sigs validated (dnskeySigLoopE p validated records sigs b).ops
  | [], _ => Checks.nil _ _
  | sig :: sigs, _ => by
    rw [dnskeySigLoopE]
    simp only
    split
    · exact Checks.one sig
    · exact (dnskeySigLoopE_checks validated records sigs true).cons sig
    · exact Checks.one sig
    · exact Checks.one sig

theorem sigLoopE_checks (zone : Bytes) : ∀ sigs st, Checks sigs (zoneKeys inp zone) (sigLoopE dbg p inp zone sigs st).ops
  | [], _ => Checks.nil _ _
  | sig :: sigs, st => by
    rw [sigLoopE]
    simp only
    split
    · exact Checks.nil _ _
    · split
      · exact (sigLoopE_checks zone sigs st).cons sig
      · exact Checks.one sig
      · exact Checks.one sig
      · split
        · exact (sigLoopE_checks zone sigs _).cons sig
        · exact Checks.one sig
        · exact Checks.one sig

/-! ### A bad signature ends everything -/

/-- No bad signature among the operations. -/
def NoBad (p : Platform) (ops : List CryptoOp) : Prop := ∀ op ∈ ops, ¬ Bad p op

/-- Nothing is done after a bad signature. -/
def Stops (p : Platform) (ops : List CryptoOp) : Prop := ∀ pre op post, ops = pre ++ op :: post → Bad p op → post = []

theorem NoBad.stops {ops : List CryptoOp} (h : NoBad p ops) : Stops p ops := by
  intro pre op post e hb
  exact absurd hb (h op (by rw [e]; simp))

theorem NoBad.nil : NoBad p [] := by intro op h; cases h

theorem NoBad.append {a b : List CryptoOp} (h : NoBad p a) (h' : NoBad p b) : NoBad p (a ++ b) := by
  intro op ho
  rcases List.mem_append.mp ho with ho | ho
  · exact h op ho
  · exact h' op ho

theorem Stops.append {a b : List CryptoOp} (h : NoBad p a) (h' : Stops p b) : Stops p (a ++ b) := by
  intro pre op post e hb
  rcases List.append_eq_append_iff.mp e with ⟨c, e1, e2⟩ | ⟨c, e1, e2⟩
  · exact h' c op post e2 hb
  · cases c with
    | nil => exact h' [] op post (by simpa using e2.symm) hb
    | cons x c =>
      rw [List.cons_append, List.cons.injEq] at e2
      exact absurd (e2.1 ▸ hb) (h x (by rw [e1]; simp))

theorem verifyRrsigE_stops (sig : RRSig) (keys : List DnsKey) (records : List RR) :
    Stops p (verifyRrsigE p sig keys records).ops ∧
    ((verifyRrsigE p sig keys records).res = .ok () ∨ (verifyRrsigE p sig keys records).res = .err .unsupported →
      NoBad p (verifyRrsigE p sig keys records).ops) := by
  rcases verifyRrsigE_ops (p := p) sig keys records with h0 | ⟨k, _, _, msg, h0, h1, h2⟩
  · rw [h0]
    exact ⟨NoBad.nil.stops, fun _ => NoBad.nil⟩
  · rw [h0]
    refine ⟨?_, ?_⟩
    · intro pre op post e _
      cases pre with
      | nil => exact (List.cons.inj e).2.symm
      | cons x pre => simp at e
    · rintro (h | h)
      · intro op ho
        rw [List.mem_singleton] at ho
        subst ho
        exact fun hb => hb (h2 h)
      · exact absurd h h1

theorem dnskeySigLoopE_stops (validated records : List DnsKey) : ∀ sigs b,
    Stops p (dnskeySigLoopE p validated records sigs b).ops ∧
    (∀ s, (dnskeySigLoopE p validated records sigs b).res = .ok s → NoBad p (dnskeySigLoopE p validated records sigs b).ops)
  | [], _ => ⟨NoBad.nil.stops, fun _ _ => NoBad.nil⟩
  | sig :: sigs, _ => by
    obtain ⟨i1, i2⟩ := dnskeySigLoopE_stops validated records sigs true
    obtain ⟨j1, j2⟩ := verifyRrsigE_stops (p := p) sig validated (records.map RR.dnskey)
    rw [dnskeySigLoopE]
    simp only
    split
    · rename_i h
      exact ⟨j1, fun _ _ => j2 (Or.inl h)⟩
    · rename_i h
      exact ⟨Stops.append (j2 (Or.inr h)) i1, fun s hs => (j2 (Or.inr h)).append (i2 s hs)⟩
    · exact ⟨j1, fun s hs => by cases hs⟩
    · exact ⟨j1, fun s hs => by cases hs⟩

theorem verifyDnskeysE_stops (sigs : List RRSig) (dses : List DS) (records : List DnsKey) :
    Stops p (verifyDnskeysE p sigs dses records).ops ∧
    (∀ s, (verifyDnskeysE p sigs dses records).res = .ok s → NoBad p (verifyDnskeysE p sigs dses records).ops) := by
  rw [verifyDnskeysE]
  split
  · exact ⟨NoBad.nil.stops, fun _ _ => NoBad.nil⟩
  · split
    · exact ⟨NoBad.nil.stops, fun _ _ => NoBad.nil⟩
    · have h0 : NoBad p (validatedKeysE p dses records).ops := by
        intro op ho
        obtain ⟨_, _, _, _, rfl, _⟩ := (validatedKeysE_ops dses records).2 op ho
        exact id
      obtain ⟨h1, h2⟩ := dnskeySigLoopE_stops (p := p) (validatedKeysE p dses records).res records sigs false
      exact ⟨Stops.append h0 h1, fun s hs => h0.append (h2 s hs)⟩

theorem sigLoopE_stops (zone : Bytes) : ∀ sigs st, Stops p (sigLoopE dbg p inp zone sigs st).ops ∧
    (∀ st', (sigLoopE dbg p inp zone sigs st).res = .ok st' → NoBad p (sigLoopE dbg p inp zone sigs st).ops)
  | [], _ => ⟨NoBad.nil.stops, fun _ _ => NoBad.nil⟩
  | sig :: sigs, st => by
    obtain ⟨j1, j2⟩ := verifyRrsigE_stops (p := p) sig (zoneKeys inp zone) (coveredRecords inp sig)
    rw [sigLoopE]
    simp only
    split
    · exact ⟨NoBad.nil.stops, fun _ _ => NoBad.nil⟩
    · split
      · rename_i h
        obtain ⟨i1, i2⟩ := sigLoopE_stops zone sigs st
        exact ⟨Stops.append (j2 (Or.inr h)) i1, fun s hs => (j2 (Or.inr h)).append (i2 s hs)⟩
      · exact ⟨j1, fun s hs => by cases hs⟩
      · exact ⟨j1, fun s hs => by cases hs⟩
      · rename_i h
        split
        · rename_i st1 _
          obtain ⟨i1, i2⟩ := sigLoopE_stops zone sigs st1
          exact ⟨Stops.append (j2 (Or.inl h)) i1, fun s hs => (j2 (Or.inl h)).append (i2 s hs)⟩
        · exact ⟨j1, fun s hs => by cases hs⟩
        · exact ⟨j1, fun s hs => by cases hs⟩

theorem doZoneE_stops (zone : Bytes) (dses : List DS) (st : VState) : Stops p (doZoneE dbg p inp zone dses st).ops ∧
    (∀ st', (doZoneE dbg p inp zone dses st).res = .ok st' → NoBad p (doZoneE dbg p inp zone dses st).ops) := by
  obtain ⟨h1, h2⟩ := verifyDnskeysE_stops (p := p) (dnskeyRrsigs inp zone) (if zone = [dot] then rootHints else dses) (zoneKeys inp zone)
  rw [doZoneE]
  simp only
  split
  · rename_i sig h
    obtain ⟨i1, i2⟩ := sigLoopE_stops (dbg := dbg) (p := p) (inp := inp) zone (zoneRrsigs inp zone) (st.note sig)
    exact ⟨Stops.append (h2 _ h) i1, fun s hs => (h2 _ h).append (i2 s hs)⟩
  · exact ⟨h1, fun s hs => by cases hs⟩
  · exact ⟨h1, fun s hs => by cases hs⟩

/-- The zone to be looked at next, its DS set, and what is left to do. -/
def nextZone (zone : Bytes) (st : VState) : Bytes × List DS × VState :=
  match st.pending with
  | (z, ds) :: rest => (z.bytes, ds, { st with pending := rest })
  | [] => (zone, [], st)

theorem zoneLoopE_succ {zone : Bytes} {st : VState} (fuel : Nat) (hc : zone = [dot] ∨ st.pending ≠ []) :
    zoneLoopE dbg p inp (fuel + 1) zone st =
      match (doZoneE dbg p inp (nextZone zone st).1 (nextZone zone st).2.1 (nextZone zone st).2.2).res with
      | .ok st1 =>
        ⟨(zoneLoopE dbg p inp fuel (nextZone zone st).1 st1).res,
          (doZoneE dbg p inp (nextZone zone st).1 (nextZone zone st).2.1 (nextZone zone st).2.2).ops ++
            (zoneLoopE dbg p inp fuel (nextZone zone st).1 st1).ops⟩
      | .err e => ⟨some (.err e), (doZoneE dbg p inp (nextZone zone st).1 (nextZone zone st).2.1 (nextZone zone st).2.2).ops⟩
      | .panic => ⟨some .panic, (doZoneE dbg p inp (nextZone zone st).1 (nextZone zone st).2.1 (nextZone zone st).2.2).ops⟩ := by
  rw [zoneLoopE, if_pos hc]
  rfl

theorem zoneLoopE_stops : ∀ (fuel : Nat) (zone : Bytes) (st : VState), Stops p (zoneLoopE dbg p inp fuel zone st).ops ∧
    (∀ st', (zoneLoopE dbg p inp fuel zone st).res = some (.ok st') → NoBad p (zoneLoopE dbg p inp fuel zone st).ops)
  | 0, zone, st => by
    rw [zoneLoopE]
    split <;> exact ⟨NoBad.nil.stops, fun _ _ => NoBad.nil⟩
  | fuel + 1, zone, st => by
    by_cases hc : zone = [dot] ∨ st.pending ≠ []
    · rw [zoneLoopE_succ fuel hc]
      obtain ⟨h1, h2⟩ := doZoneE_stops (dbg := dbg) (p := p) (inp := inp) (nextZone zone st).1 (nextZone zone st).2.1 (nextZone zone st).2.2
      split
      · rename_i st1 h
        obtain ⟨i1, i2⟩ := zoneLoopE_stops fuel (nextZone zone st).1 st1
        exact ⟨Stops.append (h2 _ h) i1, fun s hs => (h2 _ h).append (i2 s hs)⟩
      · exact ⟨h1, fun s hs => by cases hs⟩
      · exact ⟨h1, fun s hs => by cases hs⟩
    · rw [zoneLoopE, if_neg hc]
      exact ⟨NoBad.nil.stops, fun _ _ => NoBad.nil⟩

/-! ### NSEC3 hashes -/

theorem nsec3HashIterE_ops (salt : Bytes) : ∀ n h, (nsec3HashIterE p salt n h).ops.length = n ∧
    ∀ op ∈ (nsec3HashIterE p salt n h).ops, ∃ x, op = .hash x
  | 0, _ => ⟨rfl, by simp [nsec3HashIterE]⟩
  | n + 1, h => by
    obtain ⟨i1, i2⟩ := nsec3HashIterE_ops salt n (p.sha1 (h ++ salt))
    rw [nsec3HashIterE]
    refine ⟨by simp [i1], ?_⟩
    intro op ho
    rcases List.mem_cons.mp ho with rfl | ho
    · exact ⟨_, rfl⟩
    · exact i2 op ho

theorem nsec3HashE_ops (name salt : Bytes) (it : UInt16) : (nsec3HashE p name salt it).ops.length = it.toNat + 1 ∧
    ∀ op ∈ (nsec3HashE p name salt it).ops, ∃ x, op = .hash x := by
  obtain ⟨i1, i2⟩ := nsec3HashIterE_ops (p := p) salt it.toNat (p.sha1 (writeName name ++ salt))
  rw [nsec3HashE]
  refine ⟨by simp [i1], ?_⟩
  intro op ho
  rcases List.mem_cons.mp ho with rfl | ho
  · exact ⟨_, rfl⟩
  · exact i2 op ho

theorem nsec3ParamsE_ops (name : Bytes) : ∀ ns acc, acc.length < 2 →
    (nsec3ParamsE p name ns acc).ops.length ≤ (2 - acc.length) * 2501 ∧
    ∀ op ∈ (nsec3ParamsE p name ns acc).ops, ∃ x, op = .hash x
  | [], _, _ => ⟨Nat.zero_le _, by simp [nsec3ParamsE]⟩
  | n :: ns, acc, ha => by
    rw [nsec3ParamsE]
    split
    · exact nsec3ParamsE_ops name ns acc ha
    · rename_i hi
      have hi' : n.hashIterations.toNat ≤ 2500 := UInt16.le_iff_toNat_le.mp (UInt16.not_lt.mp hi)
      split
      · exact nsec3ParamsE_ops name ns acc ha
      · split
        · exact nsec3ParamsE_ops name ns acc ha
        · obtain ⟨h1, h2⟩ := nsec3HashE_ops (p := p) name n.salt n.hashIterations
          simp only [List.length_append, List.length_singleton]
          split
          · refine ⟨?_, h2⟩
            simp only [h1]
            omega
          · rename_i hl
            obtain ⟨i1, i2⟩ := nsec3ParamsE_ops name ns
              (acc ++ [(n.hashIterations, n.salt, (nsec3HashE p name n.salt n.hashIterations).res)]) (by simp; omega)
            simp only [List.length_append, List.length_singleton] at i1 ⊢
            refine ⟨by omega, ?_⟩
            intro op ho
            rcases List.mem_append.mp ho with ho | ho
            · exact h2 op ho
            · exact i2 op ho

theorem proofLoopE_ops (res : List RR) : ∀ fuel needs, (proofLoopE p res fuel needs).ops.length ≤ needs.length * 5002 ∧
    ∀ op ∈ (proofLoopE p res fuel needs).ops, ∃ x, op = .hash x
  | 0, needs => by cases needs <;> simp [proofLoopE]
  | _ + 1, [] => by simp [proofLoopE]
  | fuel + 1, need :: rest => by
    have hf : ∀ q : Need → Bool, (rest.filter q).length * 5002 ≤ rest.length * 5002 :=
      fun q => Nat.mul_le_mul_right _ (List.length_filter_le q rest)
    rw [proofLoopE, List.length_cons]
    split
    · rename_i n _
      obtain ⟨i1, i2⟩ := proofLoopE_ops res fuel (rest.filter (nsecKeep need n))
      exact ⟨Nat.le_trans i1 (Nat.le_trans (hf _) (Nat.mul_le_mul_right _ (Nat.le_succ _))), i2⟩
    · obtain ⟨h1, h2⟩ := nsec3ParamsE_ops (p := p) need.name (nsec3Search res need.zone) [] (by simp)
      have h1' : (nsec3ParamsE p need.name (nsec3Search res need.zone) []).ops.length ≤ 5002 := h1
      simp only
      split
      · rename_i n _
        obtain ⟨i1, i2⟩ := proofLoopE_ops res fuel
          (rest.filter (nsec3Keep need (nsec3ParamsE p need.name (nsec3Search res need.zone) []).res n))
        have i1' := Nat.le_trans i1 (hf _)
        refine ⟨?_, ?_⟩
        · rw [List.length_append, Nat.add_mul, Nat.add_comm]
          exact Nat.add_le_add i1' (Nat.le_trans h1' (by decide))
        intro op ho
        rcases List.mem_append.mp ho with ho | ho
        · exact h2 op ho
        · exact i2 op ho
      · refine ⟨Nat.le_trans h1' ?_, h2⟩
        rw [Nat.add_mul]
        exact Nat.le_add_left _ _

theorem finishVerifyE_ops (st : VState) : (finishVerifyE p st).ops.length ≤ st.needs.length * 5002 ∧
    ∀ op ∈ (finishVerifyE p st).ops, ∃ x, op = .hash x := by
  obtain ⟨h1, h2⟩ := proofLoopE_ops (p := p) st.res (p.sortNeeds st.needs).reverse.length (p.sortNeeds st.needs).reverse
  have hl : (p.sortNeeds st.needs).reverse.length = st.needs.length := by
    rw [List.length_reverse, (p.sortNeeds_perm st.needs).length_eq]
  have h1 := Nat.le_trans h1 (Nat.le_of_eq (congrArg (· * 5002) hl))
  rw [finishVerifyE]
  split
  · exact ⟨Nat.zero_le _, by simp⟩
  · split
    · exact ⟨Nat.zero_le _, by simp⟩
    · simp only
      split <;> exact ⟨h1, h2⟩

/-! ### Counting -/

theorem countP_none {α : Type} (q : α → Bool) {l : List α} (h : ∀ a ∈ l, q a = false) : l.countP q = 0 :=
  List.countP_eq_zero.mpr fun a ha => by rw [h a ha]; exact Bool.false_ne_true

theorem length_disjoint {α : Type} (q r : α → Bool) (h : ∀ a, q a = true → r a = false) : ∀ l : List α,
    (l.filter q).length + (l.filter r).length ≤ l.length
  | [] => Nat.le_refl 0
  | a :: l => by
    have ih := length_disjoint q r h l
    rw [List.filter_cons, List.filter_cons]
    by_cases hq : q a = true
    · rw [if_pos hq, if_neg (by rw [h a hq]; exact Bool.false_ne_true)]
      simp only [List.length_cons]; omega
    · rw [if_neg hq]
      split <;> simp only [List.length_cons] <;> omega

theorem count_disjoint {α : Type} [BEq α] [LawfulBEq α] (q r : α → Bool) (h : ∀ a, q a = true → r a = false) (x : α) (l : List α) :
    (l.filter q).count x + (l.filter r).count x ≤ l.count x := by
  have h0 : ∀ f : α → Bool, f x = false → (l.filter f).count x = 0 := by
    intro f hf
    refine List.count_eq_zero.mpr fun hm => ?_
    rw [List.mem_filter, hf] at hm
    exact Bool.false_ne_true hm.2
  have h1 : ∀ f : α → Bool, (l.filter f).count x ≤ l.count x := fun f => List.filter_sublist.count_le x
  by_cases hq : q x = true
  · rw [h0 r (h x hq)]
    exact h1 q
  · rw [h0 q ((Bool.not_eq_true _).mp hq), Nat.zero_add]
    exact h1 r

theorem rrsigs_length : ∀ inp : List RR, (rrsigs inp).length = sigCount inp
  | [] => rfl
  | r :: inp => by
    have ih := rrsigs_length inp
    cases r <;> simp_all [rrsigs, sigCount]

theorem rrsigs_count (s : RRSig) : ∀ inp : List RR, (rrsigs inp).count s = inp.count (.rrsig s)
  | [] => rfl
  | r :: inp => by
    have ih := rrsigs_count s inp
    cases r <;> simp_all [rrsigs, List.count_cons]

theorem keysAt_length (z : Name) : ∀ inp : List RR, (keysAt inp z).length ≤ keyCount inp
  | [] => Nat.le_refl 0
  | r :: inp => by
    have ih := keysAt_length z inp
    unfold keysAt keyCount at *
    rw [List.countP_cons, List.filterMap_cons]
    cases r with
    | dnskey k =>
      simp only
      split
      · rename_i h
        split at h
        · cases h
        · simp only [if_true]; omega
      · simp only [List.length_cons, if_true]; omega
    | _ => simpa using ih

theorem dsAt_length (z : Name) : ∀ inp : List RR, (dsAt inp z).length ≤ dsCount inp
  | [] => Nat.le_refl 0
  | r :: inp => by
    have ih := dsAt_length z inp
    unfold dsAt dsCount at *
    rw [List.countP_cons, List.filterMap_cons]
    cases r with
    | ds k =>
      simp only
      split
      · rename_i h
        split at h
        · cases h
        · simp only [if_true]; omega
      · simp only [List.length_cons, if_true]; omega
    | _ => simpa using ih

theorem anchors_length (inp : List RR) (z : Name) : (anchors inp z).length ≤ max 2 (dsCount inp) := by
  unfold anchors
  split
  · exact Nat.le_max_left 2 _
  · exact Nat.le_trans (dsAt_length z inp) (Nat.le_max_right 2 _)

theorem acceptSig_needs {sig : RRSig} {st st' : VState} (h : acceptSig dbg inp sig st = .ok st') :
    st'.needs.length ≤ st.needs.length + 1 := by
  unfold acceptSig at h
  split at h
  · cases h
  · split at h
    · split at h <;> cases h <;> exact Nat.le_succ _
    · simp only at h
      split at h
      · split at h
        · cases h
        · obtain ⟨l1, _, h⟩ := Res.bind_ok_iff.mp h
          split at h
          · cases h
          · cases h
            simp
      · cases h
        exact Nat.le_succ _

theorem sigLoop_needs (zone : Bytes) : ∀ {sigs : List RRSig} {st st' : VState}, sigLoop dbg p inp zone sigs st = .ok st' →
    st'.needs.length ≤ st.needs.length + sigs.length
  | [], st, st', h => by cases h; exact Nat.le_refl _
  | sig :: sigs, st, st', h => by
    rw [sigLoop] at h
    split at h
    · cases h
    · split at h
      · have := sigLoop_needs zone h
        simp only [List.length_cons]; omega
      · cases h
      · cases h
      · obtain ⟨st1, h1, h2⟩ := Res.bind_ok_iff.mp h
        have a0 := acceptSig_needs h1
        have a1 : st1.needs.length ≤ st.needs.length + 1 := a0
        have := sigLoop_needs zone h2
        simp only [List.length_cons]; omega

/-- The work of `n` zones. -/
structure Work (p : Platform) (inp : List RR) (n : Nat) (ops : List CryptoOp) : Prop where
  checks : signatureChecks ops ≤ n * sigCount inp
  each : ∀ s, checksOf s ops ≤ n * inp.count (.rrsig s)
  digests : keyDigests ops ≤ n * (keyCount inp * max 2 (dsCount inp))
  hashes : nsec3Hashes ops = 0
  warranted : ∀ op ∈ ops, Warranted p inp op

theorem Work.nil (n : Nat) : Work p inp n [] :=
  ⟨Nat.zero_le _, fun _ => Nat.zero_le _, Nat.zero_le _, rfl, by simp⟩

theorem Work.mono {n : Nat} {ops : List CryptoOp} (h : Work p inp 1 ops) : Work p inp (n + 1) ops := by
  have hm : ∀ x, 1 * x ≤ (n + 1) * x := fun x => Nat.mul_le_mul_right x (Nat.le_add_left 1 n)
  exact ⟨Nat.le_trans h.checks (hm _), fun s => Nat.le_trans (h.each s) (hm _), Nat.le_trans h.digests (hm _), h.hashes, h.warranted⟩

theorem Work.append {n : Nat} {a b : List CryptoOp} (h : Work p inp 1 a) (h' : Work p inp n b) : Work p inp (n + 1) (a ++ b) := by
  refine ⟨?_, fun s => ?_, ?_, ?_, ?_⟩
  · rw [signatureChecks, List.countP_append, Nat.add_mul, Nat.add_comm]
    exact Nat.add_le_add h'.checks h.checks
  · rw [checksOf, List.countP_append, Nat.add_mul, Nat.add_comm]
    exact Nat.add_le_add (h'.each s) (h.each s)
  · rw [keyDigests, List.countP_append, Nat.add_mul, Nat.add_comm]
    exact Nat.add_le_add h'.digests h.digests
  · rw [nsec3Hashes, List.countP_append]
    have h1 := h.hashes
    have h2 := h'.hashes
    unfold nsec3Hashes at h1 h2
    rw [h1, h2]
  · intro op ho
    rcases List.mem_append.mp ho with ho | ho
    · exact h.warranted op ho
    · exact h'.warranted op ho

theorem Checks.digests {sigs : List RRSig} {keys : List DnsKey} {ops : List CryptoOp} (h : Checks sigs keys ops) :
    keyDigests ops = 0 ∧ nsec3Hashes ops = 0 := by
  refine ⟨countP_none _ fun op ho => ?_, countP_none _ fun op ho => ?_⟩ <;>
  · obtain ⟨_, _, _, _, _, rfl, _⟩ := h.mem op ho
    rfl

theorem digests_checks {ops : List CryptoOp} (h : ∀ op ∈ ops, ∃ k d, op = .digest k d) :
    signatureChecks ops = 0 ∧ (∀ s, checksOf s ops = 0) ∧ nsec3Hashes ops = 0 := by
  refine ⟨countP_none _ fun op ho => ?_, fun s => countP_none _ fun op ho => ?_, countP_none _ fun op ho => ?_⟩ <;>
  · obtain ⟨_, _, rfl⟩ := h op ho
    rfl

theorem verifyDnskeysE_ops (sigs : List RRSig) (dses : List DS) (keys : List DnsKey) : ∃ a b,
    (verifyDnskeysE p sigs dses keys).ops = a ++ b ∧ a.length ≤ keys.length * dses.length ∧
    (∀ op ∈ a, ∃ k ∈ keys, ∃ d ∈ dses, op = .digest k d ∧ d.alg = k.alg ∧ d.keyTag.toNat = keyTag (rdata (.dnskey k))) ∧
    Checks sigs (anchoredKeys p dses keys) b := by
  rw [verifyDnskeysE]
  split
  · exact ⟨[], [], rfl, Nat.zero_le _, by simp, Checks.nil _ _⟩
  · split
    · exact ⟨[], [], rfl, Nat.zero_le _, by simp, Checks.nil _ _⟩
    · obtain ⟨h1, h2⟩ := validatedKeysE_ops (p := p) dses keys
      refine ⟨_, _, rfl, h1, h2, ?_⟩
      have := dnskeySigLoopE_checks (p := p) (validatedKeysE p dses keys).res keys sigs false
      rw [validatedKeysE_res, validatedKeys_eq] at this ⊢
      exact this

theorem doZoneE_work {z : Name} {dses : List DS} {st : VState} (hz : Reached (codeCheck p) p inp z)
    (hds : z ≠ rootName → dses = dsAt inp z) :
    Work p inp 1 (doZoneE dbg p inp z.bytes dses st).ops ∧
    ∀ st', (doZoneE dbg p inp z.bytes dses st).res = .ok st' → st'.needs.length ≤ st.needs.length + sigCount inp := by
  have ha : (if z.bytes = [dot] then rootHints else dses) = anchors inp z := by
    unfold anchors
    by_cases h : z = rootName
    · rw [if_pos h, if_pos (by rw [h]; rfl), rootHints_iana]
    · rw [if_neg h, if_neg (fun h' : z.bytes = [dot] => h ((Name.ext_iff' z rootName).mp h')), hds h]
  have hlen := length_disjoint (fun s : RRSig => s.name.bytes == z.bytes && s.ty == dnskeyType)
    (fun s : RRSig => s.keyName.bytes == z.bytes && s.ty != dnskeyType)
    (by intro s h; simp only [Bool.and_eq_true, beq_iff_eq] at h; simp [h.2]) (rrsigs inp)
  have hcnt := fun s => count_disjoint (fun s : RRSig => s.name.bytes == z.bytes && s.ty == dnskeyType)
    (fun s : RRSig => s.keyName.bytes == z.bytes && s.ty != dnskeyType)
    (by intro s h; simp only [Bool.and_eq_true, beq_iff_eq] at h; simp [h.2]) s (rrsigs inp)
  have hlen : (dnskeyRrsigs inp z.bytes).length + (zoneRrsigs inp z.bytes).length ≤ sigCount inp := by
    rw [← rrsigs_length]; exact hlen
  have hcnt : ∀ s, (dnskeyRrsigs inp z.bytes).count s + (zoneRrsigs inp z.bytes).count s ≤ inp.count (.rrsig s) := by
    intro s; rw [← rrsigs_count]; exact hcnt s
  have hres := doZoneE_res (dbg := dbg) (p := p) (inp := inp) z.bytes dses st
  constructor
  · obtain ⟨a, b, e, h1, h2, h3⟩ :=
      verifyDnskeysE_ops (p := p) (dnskeyRrsigs inp z.bytes) (anchors inp z) (zoneKeys inp z.bytes)
    -- what the loop over the other signatures adds
    have key : ∃ c, (doZoneE dbg p inp z.bytes dses st).ops = a ++ (b ++ c) ∧ Checks (zoneRrsigs inp z.bytes) (zoneKeys inp z.bytes) c ∧
        (c = [] ∨ ∃ ksig, ZoneKeysOk (codeCheck p) p inp z ksig) := by
      rw [doZoneE]
      simp only [ha]
      split
      · rename_i sig h
        refine ⟨_, by rw [e, List.append_assoc], sigLoopE_checks _ _ _, Or.inr ⟨sig, ?_⟩⟩
        rw [verifyDnskeysE_res, dnskeyRrsigs_eq, zoneKeys_eq] at h
        exact (verifyDnskeys_ok_iff _ _ _ _ _).mp h
      · exact ⟨[], by rw [e, List.append_nil], Checks.nil _ _, Or.inl rfl⟩
      · exact ⟨[], by rw [e, List.append_nil], Checks.nil _ _, Or.inl rfl⟩
    obtain ⟨c, e', h4, h5⟩ := key
    obtain ⟨a1, a2, a3⟩ := digests_checks (ops := a) fun op ho => by
      obtain ⟨k, _, d, _, h, _⟩ := h2 op ho; exact ⟨k, d, h⟩
    obtain ⟨b1, b2⟩ := h3.digests
    obtain ⟨c1, c2⟩ := h4.digests
    rw [e']
    refine ⟨?_, fun s => ?_, ?_, ?_, ?_⟩
    · rw [signatureChecks, List.countP_append, List.countP_append]
      have hb : signatureChecks b ≤ b.length := List.countP_le_length
      have hc : signatureChecks c ≤ c.length := List.countP_le_length
      have := h3.length
      have := h4.length
      unfold signatureChecks at *
      omega
    · rw [checksOf, List.countP_append, List.countP_append]
      have := h3.each s
      have := h4.each s
      have := a2 s
      have := hcnt s
      unfold checksOf at *
      omega
    · rw [keyDigests, List.countP_append, List.countP_append]
      have ha' : keyDigests a ≤ a.length := List.countP_le_length
      have : (zoneKeys inp z.bytes).length * (anchors inp z).length ≤ keyCount inp * max 2 (dsCount inp) := by
        rw [zoneKeys_eq]
        exact Nat.mul_le_mul (keysAt_length z inp) (anchors_length inp z)
      unfold keyDigests at *
      omega
    · rw [nsec3Hashes, List.countP_append, List.countP_append]
      unfold nsec3Hashes at *
      omega
    · intro op ho
      rw [List.mem_append, List.mem_append] at ho
      rcases ho with ho | ho | ho
      · obtain ⟨k, hk, d, hd, rfl, h6, h7⟩ := h2 op ho
        rw [zoneKeys_eq, mem_keysAt] at hk
        obtain ⟨hk, rfl⟩ := hk
        exact ⟨hk, hd, h6, h7, hz⟩
      · obtain ⟨s, hs, k, hk, msg, rfl, he⟩ := h3.mem op ho
        rw [anchoredKeys, List.mem_filter, zoneKeys_eq, mem_keysAt, decide_eq_true_eq] at hk
        rw [dnskeyRrsigs_eq, mem_keySigs] at hs
        obtain ⟨⟨hk, rfl⟩, hk2⟩ := hk
        exact ⟨hs.1, hk, he, hz, Or.inl ⟨hs.2.2, hs.2.1, hk2⟩⟩
      · obtain ⟨s, hs, k, hk, msg, rfl, he⟩ := h4.mem op ho
        rw [zoneKeys_eq, mem_keysAt] at hk
        rw [zoneRrsigs_eq, mem_sigsBy] at hs
        obtain ⟨hk, rfl⟩ := hk
        rcases h5 with rfl | h5
        · cases ho
        · exact ⟨hs.1, hk, he, hz, Or.inr ⟨hs.2.2, hs.2.1, h5⟩⟩
  · intro st' h
    rw [hres, doZone] at h
    obtain ⟨sig, _, h⟩ := Res.bind_ok_iff.mp h
    have := sigLoop_needs z.bytes h
    have e : (st.note sig).needs = st.needs := rfl
    rw [e] at this
    omega

theorem Inv.next {P : List Name} {zone : Bytes} {st : VState} (hI : Inv dbg p inp P st) (hc : zone = [dot] ∨ st.pending ≠ []) :
    ∃ z : Name, (nextZone zone st).1 = z.bytes ∧ Reached (codeCheck p) p inp z ∧
      (z ≠ rootName → (nextZone zone st).2.1 = dsAt inp z) ∧ (nextZone zone st).2.2.needs = st.needs ∧
      ∀ st1, doZone dbg p inp z.bytes (nextZone zone st).2.1 (nextZone zone st).2.2 = .ok st1 → Inv dbg p inp (z :: P) st1 := by
  cases hp : st.pending with
  | nil =>
    have hzone : zone = [dot] := by
      rcases hc with hc | hc
      · exact hc
      · exact absurd hp hc
    subst hzone
    have e : nextZone [dot] st = ([dot], [], st) := by rw [nextZone, hp]
    rw [e]
    refine ⟨rootName, rfl, .root, fun h => absurd rfl h, rfl, fun st1 hd => ?_⟩
    exact doZone_step (z := rootName) (dses := []) hI.eff hI.reached hI.keys hI.sigs
      (fun z' h' s hs ht => (hI.deleg z' h' s hs ht).elim (fun a => Or.inl (List.mem_cons_of_mem _ a)) Or.inr)
      hI.pend (fun z' h' s hs ht hn => Or.inr (hI.self z' h' s hs ht hn)) .root (fun h => absurd rfl h) hd
  | cons e rest =>
    obtain ⟨z, ds⟩ := e
    have e : nextZone zone st = (z.bytes, ds, { st with pending := rest }) := by rw [nextZone, hp]
    rw [e]
    obtain ⟨g1, g2⟩ := hI.pend (z, ds) (by rw [hp]; simp)
    have heff := hI.eff
    refine ⟨z, rfl, g1, fun _ => g2, rfl, fun st1 hd => ?_⟩
    exact doZone_step (st := { st with pending := rest }) ⟨heff.1, heff.2, heff.3, heff.4, heff.5, heff.6, heff.7, heff.8, heff.9⟩
      hI.reached hI.keys hI.sigs
      (by
        intro z' h' s hs ht
        rcases hI.deleg z' h' s hs ht with a | ⟨e, a, b⟩
        · exact Or.inl (by simp [a])
        · rw [hp] at a
          rcases List.mem_cons.mp a with rfl | a
          · exact Or.inl (by simp [← b])
          · exact Or.inr ⟨e, a, b⟩)
      (fun e he => hI.pend e (by rw [hp]; exact List.mem_cons_of_mem _ he))
      (by
        intro z' h' s hs ht hn
        obtain ⟨e, a, b⟩ := hI.self z' h' s hs ht hn
        rw [hp] at a
        rcases List.mem_cons.mp a with rfl | a
        · exact Or.inl b.symm
        · exact Or.inr ⟨e, a, b⟩)
      g1 (fun _ => g2) hd

theorem zoneLoopE_work : ∀ (fuel : Nat) {zone : Bytes} {st : VState} {P : List Name}, Inv dbg p inp P st →
    Work p inp fuel (zoneLoopE dbg p inp fuel zone st).ops ∧
    ∀ st', (zoneLoopE dbg p inp fuel zone st).res = some (.ok st') → st'.needs.length ≤ st.needs.length + fuel * sigCount inp
  | 0, zone, st, P, hI => by
    rw [zoneLoopE]
    split
    · exact ⟨Work.nil 0, fun st' h => by cases h⟩
    · exact ⟨Work.nil 0, fun st' h => by cases h; exact Nat.le_add_right _ _⟩
  | fuel + 1, zone, st, P, hI => by
    by_cases hc : zone = [dot] ∨ st.pending ≠ []
    · obtain ⟨z, e1, hz, hds, hn, hnext⟩ := hI.next hc
      rw [zoneLoopE_succ fuel hc, e1]
      obtain ⟨h1, h2⟩ := doZoneE_work (dbg := dbg) (st := (nextZone zone st).2.2) hz hds
      split
      · rename_i st1 h
        have hI1 := hnext st1 (by rw [← doZoneE_res]; exact h)
        obtain ⟨i1, i2⟩ := zoneLoopE_work fuel (zone := z.bytes) hI1
        refine ⟨h1.append i1, fun st' hs => ?_⟩
        have := i2 st' hs
        have := h2 st1 h
        rw [hn] at this
        rw [Nat.add_mul]
        omega
      · exact ⟨h1.mono, fun st' hs => by cases hs⟩
      · exact ⟨h1.mono, fun st' hs => by cases hs⟩
    · rw [zoneLoopE, if_neg hc]
      exact ⟨Work.nil _, fun st' h => by cases h; exact Nat.le_add_right _ _⟩

/-! ### A successful zone needs a signature -/

theorem checkSigE_one {sig : RRSig} {k : DnsKey} {msg : Bytes} (h : (checkSigE p sig k msg).res = .ok ()) :
    signatureChecks (checkSigE p sig k msg).ops = 1 := by
  unfold checkSigE at *
  simp only at *
  by_cases h1 : sig.alg = 8 ∨ sig.alg = 10
  · rw [if_pos h1] at *
    cases hb : bytesToRsaPk k.pubkey with
    | none => rw [hb] at h; cases h
    | some v => rfl
  · rw [if_neg h1] at *
    by_cases h2 : sig.alg = 13 ∨ sig.alg = 14
    · rw [if_pos h2]; rfl
    · rw [if_neg h2] at *
      by_cases h3 : sig.alg = 15
      · rw [if_pos h3]; rfl
      · rw [if_neg h3] at h
        cases h

theorem verifyKeysLoopE_one {sig : RRSig} {records : List RR} : ∀ {keys : List DnsKey},
    (verifyKeysLoopE p sig records keys).res = .ok () → signatureChecks (verifyKeysLoopE p sig records keys).ops = 1
  | [], h => by cases h
  | k :: ks, h => by
    rw [verifyKeysLoopE] at h ⊢
    split at h
    · rename_i he
      rw [if_pos he]
      cases hd : signedData sig records with
      | none => rw [hd] at h; cases h
      | some msg =>
        rw [hd] at h
        exact checkSigE_one h
    · rename_i he
      rw [if_neg he]
      exact verifyKeysLoopE_one h

theorem verifyRrsigE_one {sig : RRSig} {keys : List DnsKey} {records : List RR} (h : (verifyRrsigE p sig keys records).res = .ok ()) :
    signatureChecks (verifyRrsigE p sig keys records).ops = 1 := by
  rw [verifyRrsigE] at *
  split at h
  · cases h
  · rename_i hn
    rw [if_neg hn]
    exact verifyKeysLoopE_one h

theorem signatureChecks_append (a b : List CryptoOp) : signatureChecks (a ++ b) = signatureChecks a + signatureChecks b :=
  List.countP_append

theorem dnskeySigLoopE_one {validated records : List DnsKey} : ∀ {sigs : List RRSig} {b : Bool} {s : RRSig},
    (dnskeySigLoopE p validated records sigs b).res = .ok s → 1 ≤ signatureChecks (dnskeySigLoopE p validated records sigs b).ops
  | [], _, _, h => by cases h
  | sig :: sigs, b, s, h => by
    rw [dnskeySigLoopE] at h ⊢
    simp only at h ⊢
    cases hr : (verifyRrsigE p sig validated (records.map RR.dnskey)).res with
    | ok u => exact Nat.le_of_eq (verifyRrsigE_one hr).symm
    | panic => rw [hr] at h; cases h
    | err e =>
      cases e with
      | invalid => rw [hr] at h; cases h
      | unsupported =>
        rw [hr] at h
        simp only at h ⊢
        rw [signatureChecks_append]
        have := dnskeySigLoopE_one (s := s) h
        omega

theorem doZoneE_one {zone : Bytes} {dses : List DS} {st st' : VState} (h : (doZoneE dbg p inp zone dses st).res = .ok st') :
    1 ≤ signatureChecks (doZoneE dbg p inp zone dses st).ops := by
  rw [doZoneE] at h ⊢
  simp only at h ⊢
  have key : ∀ {sigs : List RRSig} {ds : List DS} {ks : List DnsKey} {s : RRSig}, (verifyDnskeysE p sigs ds ks).res = .ok s →
      1 ≤ signatureChecks (verifyDnskeysE p sigs ds ks).ops := by
    intro sigs ds ks s hk
    rw [verifyDnskeysE] at hk ⊢
    split at hk
    · cases hk
    · rename_i h1
      rw [if_neg h1]
      split at hk
      · cases hk
      · rename_i h2
        rw [if_neg h2]
        simp only at hk ⊢
        rw [signatureChecks_append]
        have := dnskeySigLoopE_one hk
        omega
  split at h
  · rename_i sig hs
    simp only
    rw [signatureChecks_append]
    have := key hs
    omega
  · cases h
  · cases h

/-- As long as the zone loop runs, every zone costs a signature check. -/
theorem zoneLoopE_each : ∀ {fuel : Nat} {zone : Bytes} {st : VState}, (zoneLoopE dbg p inp fuel zone st).res = none →
    fuel ≤ signatureChecks (zoneLoopE dbg p inp fuel zone st).ops
  | 0, _, _, _ => Nat.zero_le _
  | fuel + 1, zone, st, h => by
    by_cases hc : zone = [dot] ∨ st.pending ≠ []
    · rw [zoneLoopE_succ fuel hc] at h ⊢
      split at h
      · rename_i st1 hd
        simp only at h ⊢
        rw [signatureChecks_append]
        have := doZoneE_one hd
        have := zoneLoopE_each h
        omega
      · cases h
      · cases h
    · rw [zoneLoopE, if_neg hc] at h
      cases h

/-- Going on after more zones does not change what was done before. -/
theorem zoneLoopE_prefix : ∀ {f g : Nat} {zone : Bytes} {st : VState}, f ≤ g →
    (zoneLoopE dbg p inp f zone st).ops <+: (zoneLoopE dbg p inp g zone st).ops
  | 0, _, _, _, _ => by rw [zoneLoopE]; split <;> exact List.nil_prefix
  | f + 1, 0, _, _, h => by omega
  | f + 1, g + 1, zone, st, h => by
    by_cases hc : zone = [dot] ∨ st.pending ≠ []
    · rw [zoneLoopE_succ f hc, zoneLoopE_succ g hc]
      split
      · exact (List.prefix_append_right_inj _).mpr (zoneLoopE_prefix (by omega))
      · exact List.prefix_refl _
      · exact List.prefix_refl _
    · rw [zoneLoopE, if_neg hc, zoneLoopE, if_neg hc]
      exact List.prefix_refl _

/-- After a result, more fuel changes nothing. -/
theorem zoneLoopE_stable : ∀ {f g : Nat} {zone : Bytes} {st : VState}, f ≤ g → (zoneLoopE dbg p inp f zone st).res ≠ none →
    zoneLoopE dbg p inp g zone st = zoneLoopE dbg p inp f zone st
  | 0, g, zone, st, _, h => by
    rw [zoneLoopE] at h
    by_cases hc : zone = [dot] ∨ st.pending ≠ []
    · rw [if_pos hc] at h
      exact absurd rfl h
    · cases g with
      | zero => rfl
      | succ g => rw [zoneLoopE, if_neg hc, zoneLoopE, if_neg hc]
  | f + 1, 0, _, _, h, _ => by omega
  | f + 1, g + 1, zone, st, h, hn => by
    by_cases hc : zone = [dot] ∨ st.pending ≠ []
    · rw [zoneLoopE_succ f hc] at hn
      rw [zoneLoopE_succ f hc, zoneLoopE_succ g hc]
      split at hn
      · simp only at hn ⊢
        rw [zoneLoopE_stable (by omega) hn]
      · rfl
      · rfl
    · rw [zoneLoopE, if_neg hc, zoneLoopE, if_neg hc]

theorem verifyRRStreamE_stable {f g : Nat} (h : f ≤ g) (hn : (verifyRRStreamE dbg p f inp).res ≠ none) :
    verifyRRStreamE dbg p g inp = verifyRRStreamE dbg p f inp := by
  have : (zoneLoopE dbg p inp f [dot] VState.init).res ≠ none := by
    intro hz
    rw [verifyRRStreamE] at hn
    simp only at hn
    rw [hz] at hn
    exact hn rfl
  rw [verifyRRStreamE, verifyRRStreamE, zoneLoopE_stable h this]

end Dnssec
