import Verif.Props.Honest
import Verif.Props.Validation

/-! # C90: how long a proof may be cached -/

namespace Dnssec.Props

open Dnssec Spec

variable {dbg dbg' : Bool} {p : Platform} {name : Name} {ty : UInt16} {fuel : Nat} {v : Verified}

/-- Signatures that are used are there. -/
theorem used_mem {S : SigCheck} {inp : List RR} {s : RRSig} (h : Used S p inp s) : RR.rrsig s ∈ inp := by
  obtain ⟨z, _, h | h⟩ := h
  · obtain ⟨_, before, after, e, _⟩ := h
    exact (mem_keySigs.mp (by rw [e]; simp)).1
  · exact (mem_sigsBy.mp h.1).1

/-- The TTL returned with a proof is at most the TTL with which any signature in the proof was received. -/
theorem ttl_le_received {acc qs : List Bytes} {b : ProofBuilder} (h : Run dbg name ty acc [] qs b)
    {proof : Bytes} {ttl : UInt32} (hf : b.finish = some (proof, ttl))
    (henc : ∀ resp ∈ acc, ∀ recs, Contributes dbg resp recs → ∀ r ∈ recs, Encodable r.1)
    {inp : List RR} (hp : parseRRStream dbg' proof = .ok inp) {r : RR} (hr : r ∈ inp) :
    ∃ t : UInt32, ttl.toNat ≤ t.toNat ∧ ∃ resp ∈ acc, ∃ recs, Contributes dbg resp recs ∧ (r, t) ∈ recs := by
  obtain ⟨recss, h1, h2, h3, h4⟩ := run_proof h rfl
  have hpend := (run_inv h).pending
  have hmade := (run_inv h).made
  have e : b.proof = proof ∧ b.minTtl = ttl := by
    unfold ProofBuilder.finish at hf
    split at hf
    · simp at hf
    · simpa using hf
  have hmem : ∀ x ∈ recss.flatten, ∃ resp ∈ acc, ∃ recs, Contributes dbg resp recs ∧ x ∈ recs := by
    intro x hx
    rw [List.mem_flatten] at hx
    obtain ⟨recs, hr, hx⟩ := hx
    obtain ⟨i, hi, rfl⟩ := List.mem_iff_getElem.mp hr
    have hz : (acc[i]'(by omega), recss[i]) ∈ acc.zip recss := by
      rw [List.mem_iff_getElem]
      exact ⟨i, by simp; omega, by simp⟩
    exact ⟨_, List.getElem_mem _, _, h2 _ hz, hx⟩
  have hparse := C04_stream_of_writes_partial dbg' recss.flatten (by
    intro x hx
    obtain ⟨resp, g1, recs, g2, g3⟩ := hmem x hx
    exact henc resp g1 recs g2 x g3)
  rw [← e.1, h3] at hp
  have hi : recss.flatten.map Prod.fst = inp := by
    have := hparse.symm.trans hp
    simpa using this
  rw [← hi, List.mem_map] at hr
  obtain ⟨⟨r', t⟩, hx, rfl⟩ := hr
  refine ⟨t, ?_, hmem _ hx⟩
  rcases h4 with ⟨e0, _⟩ | h4
  · rw [e0] at h1 
    simp at h1
    rw [h1] at hx
    simp at hx
  · rw [← e.2]
    exact h4.1 _ hx

/-- **C90.** If the resolver never gives a signature a TTL above its original TTL (RFC 4034 3.1.4), the TTL returned with a proof, which the
HTTP server sends as the maximum age, is at most the `max_cache_ttl` found by verifying the proof. -/
theorem C90_ttl_partial {acc qs : List Bytes} {b : ProofBuilder} (h : Run dbg name ty acc [] qs b)
    {proof : Bytes} {ttl : UInt32} (hf : b.finish = some (proof, ttl))
    (henc : ∀ resp ∈ acc, ∀ recs, Contributes dbg resp recs → ∀ r ∈ recs, Encodable r.1)
    (httl : ∀ resp ∈ acc, ∀ recs, Contributes dbg resp recs → ∀ s t, (RR.rrsig s, t) ∈ recs → t.toNat ≤ s.origTtl.toNat)
    {inp : List RR} (hp : parseRRStream dbg' proof = .ok inp) (hv : verifyRRStream dbg' p fuel inp = some (.ok v)) :
    ttl.toNat ≤ v.maxCacheTtl.toNat := by
  obtain ⟨⟨s, hs, e⟩, _⟩ := C25_ttl hv
  obtain ⟨t, h1, resp, h2, recs, h3, h4⟩ := ttl_le_received h hf henc hp (used_mem hs)
  rw [← e]
  exact Nat.le_trans h1 (httl resp h2 recs h3 s t h4)

/-- **C90.** If the resolver never gives a signature a TTL that goes beyond its expiration, counted from `now` (RFC 4035 5.3.3), the proof is still
within its window when the time for which it may be cached ends. -/
theorem C90_expiry_partial {acc qs : List Bytes} {b : ProofBuilder} (h : Run dbg name ty acc [] qs b)
    {proof : Bytes} {ttl : UInt32} (hf : b.finish = some (proof, ttl))
    (henc : ∀ resp ∈ acc, ∀ recs, Contributes dbg resp recs → ∀ r ∈ recs, Encodable r.1) (now : Nat)
    (httl : ∀ resp ∈ acc, ∀ recs, Contributes dbg resp recs → ∀ s t, (RR.rrsig s, t) ∈ recs → now + t.toNat ≤ instant s.expiration)
    {inp : List RR} (hp : parseRRStream dbg' proof = .ok inp) (hv : verifyRRStream dbg' p fuel inp = some (.ok v)) :
    now + ttl.toNat ≤ v.expires := by
  obtain ⟨_, ⟨⟨s, hs, e⟩, _⟩, _⟩ := C24_window hv
  obtain ⟨t, h1, resp, h2, recs, h3, h4⟩ := ttl_le_received h hf henc hp (used_mem hs)
  have := httl resp h2 recs h3 s t h4
  simp only at e
  omega

/-- A response with these answers, all with this TTL. -/
def cacheReply (ttl : UInt32) (qname : String) (qtype : UInt16) (answers : List RR) : Bytes :=
  be16 0 ++ (be16 0x81a0 ++ (be16 1 ++ (be16 (UInt16.ofNat answers.length) ++ (be16 0 ++ (be16 0 ++
    (writeName (ascii qname) ++ (be16 qtype ++ (be16 1 ++ encode (answers.map (·, ttl))))))))))

/-- What a resolver that gives every record this TTL sends for the address of `a.c.` and the keys above it. -/
def cacheStream (ttl : UInt32) : Bytes :=
  ([cacheReply ttl "a.c." 1 [wA "a.c.", wSig "a.c." 1 2 "c."], cacheReply ttl "c." 48 (wZone "c." 1),
    cacheReply ttl "c." 43 [wDs "c.", wSig "c." 43 1 "."], cacheReply ttl "." 48 (wZone "." 0)].map frame).flatten

/-- The records it sends. -/
def cacheRecords : List RR :=
  [wA "a.c.", wSig "a.c." 1 2 "c."] ++ wZone "c." 1 ++ [wDs "c.", wSig "c." 43 1 "."] ++ wZone "." 0

/-- What it is asked. -/
def cacheQueries : List Bytes :=
  [queryMessage (nameWire (ascii "a.c.")) 1, queryMessage (nameWire (ascii "c.")) 48, queryMessage (nameWire (ascii "c.")) 43,
    queryMessage (nameWire (ascii ".")) 48]

/-- **C90 is false:** the TTL is taken from the resolver even if it is above the original TTL. Here the proof comes with a TTL of a day although
`max_cache_ttl` is an hour. -/
theorem C90_fails_above_original : ∃ s proof inp v,
    buildProof false 10 ⟨cacheStream 86400, 100, []⟩ ⟨ascii "a.c."⟩ 1 = some (s, .ok (proof, 86400)) ∧
    parseRRStream false proof = .ok inp ∧ verifyRRStream false wPlatform 5 inp = some (.ok v) ∧ v.maxCacheTtl = 3600 := by
  refine ⟨⟨[], 92, ((cacheQueries).map frame).flatten⟩, encode (cacheRecords.map (·, 86400)), cacheRecords, ⟨[wA "a.c."], 1000000000, 2000000000, 3600⟩, ?_, ?_, ?_, rfl⟩ <;> decide +kernel

/-- **C90 is false:** the TTL takes no account of the time at which the signatures expire. Here the resolver's TTL is that of the zone, an hour, but
the proof expires ten minutes after it was obtained. -/
theorem C90_fails_expiry : ∃ s proof inp v now,
    buildProof false 10 ⟨cacheStream 3600, 100, []⟩ ⟨ascii "a.c."⟩ 1 = some (s, .ok (proof, 3600)) ∧
    parseRRStream false proof = .ok inp ∧ verifyRRStream false wPlatform 5 inp = some (.ok v) ∧
    v.validFrom ≤ now ∧ now + 600 = v.expires ∧ v.expires < now + 3600 := by
  refine ⟨⟨[], 92, ((cacheQueries).map frame).flatten⟩, encode (cacheRecords.map (·, 3600)), cacheRecords, ⟨[wA "a.c."], 1000000000, 2000000000, 3600⟩, 1999999400, ?_, ?_, ?_, ?_⟩
  all_goals decide +kernel

theorem cacheReply_contributes {dbg : Bool} {qname : String} {qtype : UInt16} {answers : List RR} (hn : ∃ ls, HasLabels ⟨ascii qname⟩ ls)
    (h1 : 1 ≤ answers.length) (h2 : answers.length ≤ 65535) (he : ∀ r ∈ answers, Encodable r) :
    Contributes dbg (cacheReply 300 qname qtype answers) (answers.map (·, 300)) := by
  obtain ⟨ls, hn⟩ := hn
  have l1 : (UInt16.ofNat answers.length).toNat = answers.length := by rw [UInt16.toNat_ofNat']; omega
  refine ⟨0x81a0, UInt16.ofNat answers.length, 0, 0, ⟨ascii qname⟩, qtype, 1, encode (answers.map (·, 300)), [], [], answers.map (·, 300), [],
    ⟨_, rfl, readName_reads.mp (readName_write _ hn _)⟩, by decide, by decide, by decide, by decide, by decide, by rw [l1]; exact h1,
    ?_, .nil _, by simp⟩
  rw [l1]
  have := records_encode (dbg := dbg) (msg := cacheReply 300 qname qtype answers) (rest := []) answers he
  simpa using this

/-- The responses with a TTL of 300. -/
def cacheR1 : Bytes := cacheReply 300 "a.c." 1 [wA "a.c.", wSig "a.c." 1 2 "c."]
def cacheR2 : Bytes := cacheReply 300 "c." 48 (wZone "c." 1)
def cacheR3 : Bytes := cacheReply 300 "c." 43 [wDs "c.", wSig "c." 43 1 "."]
def cacheR4 : Bytes := cacheReply 300 "." 48 (wZone "." 0)
/-- The builder after each of them. -/
def cacheB1 : ProofBuilder := ((ProofBuilder.new ⟨ascii "a.c."⟩ 1).1.processResponse false cacheR1).1
def cacheB2 : ProofBuilder := (cacheB1.processResponse false cacheR2).1
def cacheB3 : ProofBuilder := (cacheB2.processResponse false cacheR3).1
def cacheB4 : ProofBuilder := (cacheB3.processResponse false cacheR4).1

theorem pair_eq {α β : Type} {x : α × β} {y : β} (h : x.2 = y) : x = (x.1, y) := by rw [← h]

/-- With a TTL of 300 the hypotheses of both theorems are met: `max_cache_ttl` is an hour, and the signatures are valid for longer. -/
example : ∃ acc qs b proof inp v, Run false ⟨ascii "a.c."⟩ 1 acc [] qs b ∧ b.finish = some (proof, 300) ∧
    (∀ resp ∈ acc, ∀ recs, Contributes false resp recs → ∀ r ∈ recs, Encodable r.1) ∧
    (∀ resp ∈ acc, ∀ recs, Contributes false resp recs → ∀ s t, (RR.rrsig s, t) ∈ recs → t.toNat ≤ s.origTtl.toNat) ∧
    (∀ resp ∈ acc, ∀ recs, Contributes false resp recs → ∀ s t, (RR.rrsig s, t) ∈ recs → 1999999000 + t.toNat ≤ instant s.expiration) ∧
    parseRRStream false proof = .ok inp ∧ verifyRRStream false wPlatform 5 inp = some (.ok v) := by
  obtain ⟨h0, h1, _, h2, _⟩ := exLabels
  have run1 : Run false ⟨ascii "a.c."⟩ 1 _ [] _ cacheB1 := .accept .new
    (pair_eq (y := Res.ok [queryMessage (nameWire (ascii "c.")) 48, queryMessage (nameWire (ascii "c.")) 43]) (by decide +kernel))
  have run2 : Run false ⟨ascii "a.c."⟩ 1 _ [] _ cacheB2 := .accept run1 (pair_eq (y := Res.ok []) (by decide +kernel))
  have run3 : Run false ⟨ascii "a.c."⟩ 1 _ [] _ cacheB3 :=
    .accept run2 (pair_eq (y := Res.ok [queryMessage (nameWire (ascii ".")) 48]) (by decide +kernel))
  have run4 : Run false ⟨ascii "a.c."⟩ 1 _ [] _ cacheB4 := .accept run3 (pair_eq (y := Res.ok []) (by decide +kernel))
  have c1 : Contributes false cacheR1 _ := cacheReply_contributes h2 (by decide) (by decide) (by
    simp only [List.forall_mem_cons, List.not_mem_nil, false_implies, implies_true, and_true]
    exact ⟨wA_encodable h2, lSig_encodable h2 h1⟩)
  have c2 : Contributes false cacheR2 _ := cacheReply_contributes h1 (by decide) (by decide) (by
    simp only [wZone, List.forall_mem_cons, List.not_mem_nil, false_implies, implies_true, and_true]
    exact ⟨wKey_encodable h1, lSig_encodable h1 h1⟩)
  have c3 : Contributes false cacheR3 _ := cacheReply_contributes h1 (by decide) (by decide) (by
    simp only [List.forall_mem_cons, List.not_mem_nil, false_implies, implies_true, and_true]
    exact ⟨wDs_encodable h1, lSig_encodable h1 h0⟩)
  have c4 : Contributes false cacheR4 _ := cacheReply_contributes h0 (by decide) (by decide) (by
    simp only [wZone, List.forall_mem_cons, List.not_mem_nil, false_implies, implies_true, and_true]
    exact ⟨wKey_encodable h0, lSig_encodable h0 h0⟩)
  have key : ∀ resp ∈ [cacheR1, cacheR2, cacheR3, cacheR4], ∀ recs, Contributes false resp recs → ∀ x ∈ recs, x.2 = 300 ∧ Encodable x.1 ∧
      ∀ s, x.1 = .rrsig s → s.origTtl = 3600 ∧ s.expiration = 2000000000 := by
    intro resp hr recs hc
    simp only [List.mem_cons, List.not_mem_nil, or_false] at hr
    rcases hr with rfl | rfl | rfl | rfl
    · rw [contributes_unique hc c1]
      simp [wA_encodable h2, show Encodable (wSig "a.c." 1 2 "c.") from lSig_encodable h2 h1]
      simp [wA, wSig, wSigWith]
    · rw [contributes_unique hc c2]
      simp [wZone, wKey_encodable h1, show Encodable (wSig "c." 48 1 "c.") from lSig_encodable h1 h1]
      simp [wKey, wSig, wSigWith]
    · rw [contributes_unique hc c3]
      simp [wDs_encodable h1, show Encodable (wSig "c." 43 1 ".") from lSig_encodable h1 h0]
      simp [wDs, wSig, wSigWith]
    · rw [contributes_unique hc c4]
      simp [wZone, wKey_encodable h0, show Encodable (wSig "." 48 0 ".") from lSig_encodable h0 h0]
      simp [wKey, wSig, wSigWith]
  refine ⟨_, _, cacheB4, encode (cacheRecords.map (·, 300)), cacheRecords, ⟨[wA "a.c."], 1000000000, 2000000000, 3600⟩, run4, by decide +kernel,
    fun resp hr recs hc x hx => (key resp hr recs hc x hx).2.1, fun resp hr recs hc s t hx => ?_, fun resp hr recs hc s t hx => ?_,
    by decide +kernel, by decide +kernel⟩
  · obtain ⟨e1, _, e2⟩ := key resp hr recs hc _ hx
    simp only at e1
    rw [e1, (e2 s rfl).1]
    decide
  · obtain ⟨e1, _, e2⟩ := key resp hr recs hc _ hx
    simp only at e1
    rw [e1, (e2 s rfl).2]
    decide

end Dnssec.Props
