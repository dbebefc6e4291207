import Verif.Proofs.Rfc9102
import Verif.Props.Honest
import Verif.Props.Ticks

/-! # C104: proofs are RFC 9102 authentication chains -/

namespace Dnssec.Props

open Dnssec Spec

variable {dbg : Bool} {w : World} {name : Name} {ty : UInt16} {resolve : Bytes → Bytes} {p : Platform}

/-- **C104.** With a correctly functioning resolver and a correctly signed world with at most four zones below the root, in whatever order
the responses arrive, the finished proof is an authentication chain: first what the resolver has answered to the question, in the order of its
answer, then the key sets and DS sets of all zones, each set together with its signatures, all uncompressed. Missing: a limit for the length, for which
it is false (below), and what is missing from C67. -/
theorem C104_built_partial (hw : w.Signed p) (hr : Honest dbg w name ty resolve) (h4 : w.zones.length ≤ 4) {answered : List Bytes}
    {b : ProofBuilder} (h : Session dbg resolve name ty [] answered b) :
    ∃ proof ttl first, b.finish = some (proof, ttl) ∧ Contributes dbg (resolve (queryMessage (nameWire name.bytes) ty)) first ∧
      AuthenticationChain w first proof := by
  obtain ⟨proof, ttl, first, h1, h2, h3⟩ := session_chain hw hr h h4
  rw [queryBytes_eq, writeName_eq_nameWire] at h2
  exact ⟨proof, ttl, first, h1, h2, h3⟩

/-- **C104.** Conversely authentication chains are accepted, by whomever they were made, with any number of zones, with the sets in
any order, any TTLs, and with unsigned records among the answer (RFC 9102: the client "will just ignore them"), and the records verified are exactly
those of the answer (other than denials): exactly those chains in which, of the signatures over each key set, ones by keys in the DS
set come first. Others are rejected. Missing: chains without a zone below the root, and those others, for which it is false (C56, C67). -/
theorem C104_accepted_iff_partial (hw : w.Signed p) (h1 : w.zones ≠ []) {first : List (RR × UInt32)} {extra : List RR}
    (hf : (first.map Prod.fst).Perm (w.answer.flatMap SignedSet.all ++ extra)) (hx : w.Unsigned extra) {chain : Bytes}
    (h : AuthenticationChain w first chain) :
    ∃ inp, (∀ dbg', parseRRStream dbg' chain = .ok inp) ∧ (w.KeySetsByAnchored p → w.AnchoredFirstIn p inp) ∧ ∀ dbg',
      (w.AnchoredFirstIn p inp → ∃ fuel v, verifyRRStream dbg' p fuel inp = some (.ok v) ∧
        ∀ r, r ∈ v.verifiedRrs ↔ ∃ s ∈ w.answer, s.ty ≠ 47 ∧ s.ty ≠ 50 ∧ r ∈ s.records) ∧
      (¬ w.AnchoredFirstIn p inp → ∃ fuel, verifyRRStream dbg' p fuel inp = some (.err .invalid)) := by
  obtain ⟨ss, rest, hss, hb, rfl⟩ := h
  have hperm : ((first ++ rest).map Prod.fst).Perm (w.records ++ extra) := by
    rw [List.map_append]
    refine (hf.append ((blocks_perm hb).trans (hss.flatMap_right _))).trans ?_
    unfold World.records World.sets
    rw [List.flatMap_append, List.append_assoc, List.append_assoc]
    exact List.perm_append_comm.append_left _
  obtain ⟨inp', g1, g2, g3⟩ := without_unsigned hw hx hperm
  have hfirst : w.AnchoredFirstIn p inp' ↔ w.AnchoredFirstIn p ((first ++ rest).map Prod.fst) := by
    unfold World.AnchoredFirstIn
    simp only [g3]
  refine ⟨(first ++ rest).map Prod.fst, fun dbg' => ?_, fun h => hfirst.mp (world_anchoredFirst hw g1 h), fun dbg' => ⟨fun hk => ?_, fun hk => ?_⟩⟩
  · refine C04_stream_of_writes_partial dbg' _ fun r hr => ?_
    have := hperm.mem_iff.mp (List.mem_map.mpr ⟨r, hr, rfl⟩)
    rcases List.mem_append.mp this with h | h
    · exact hw.encodable _ h
    · exact (hx _ h).2.1
  · simp only [← g2]
    exact world_verified hw (hfirst.mpr hk) g1 h1 dbg'
  · simp only [← g2]
    exact world_rejected hw g1 h1 (fun h => hk (hfirst.mp h)) dbg'

/-- **C104.** In particular all chains are accepted in which key sets are signed only with keys in the DS sets. -/
theorem C104_accepted_partial (hw : w.Signed p) (hk : w.KeySetsByAnchored p) (h1 : w.zones ≠ []) {first : List (RR × UInt32)} {extra : List RR}
    (hf : (first.map Prod.fst).Perm (w.answer.flatMap SignedSet.all ++ extra)) (hx : w.Unsigned extra) {chain : Bytes}
    (h : AuthenticationChain w first chain) :
    ∃ inp, (∀ dbg', parseRRStream dbg' chain = .ok inp) ∧ ∀ dbg', ∃ fuel v, verifyRRStream dbg' p fuel inp = some (.ok v) ∧
      ∀ r, r ∈ v.verifiedRrs ↔ ∃ s ∈ w.answer, s.ty ≠ 47 ∧ s.ty ≠ 50 ∧ r ∈ s.records := by
  obtain ⟨inp, a, b, c⟩ := C104_accepted_iff_partial hw h1 hf hx h
  exact ⟨inp, a, fun dbg' => (c dbg').1 (b hk)⟩

/-- The session of C67's example: the proof has the address and the denial first, then the sets of the root and of `c.`. -/
example : ∃ answered b proof ttl first, Session true exResolve ⟨ascii "x.c."⟩ 1 [] answered b ∧ b.finish = some (proof, ttl) ∧
    (first.map Prod.fst).Perm (lA.all ++ lDenial.all) ∧ AuthenticationChain exWorld first proof := by
  obtain ⟨ans, b, hs, _⟩ := session_fifo exSigned (exHonest true) (by decide) 10 _ [] _ (by simp) .new .new
  obtain ⟨proof, ttl, first, h1, h2, h3⟩ := C104_built_partial exSigned (exHonest true) (by decide) hs
  refine ⟨ans, b, proof, ttl, first, hs, h1, ?_, h3⟩
  obtain ⟨recs, hc, hp⟩ : Gives true (exReply "x.c." 1 lA.all lDenial.all) (lA.all ++ lDenial.all) :=
    exReply_gives exLabels.2.2.1 (by decide) (by decide) (by decide)
      (fun r hr => exWorld_encodable r (by
        rw [exWorld_records]
        have : r ∈ [wA "x.c.", .rrsig (lSig "x.c." 1 1 "c." 40), lNsec, .rrsig (lSig "a.c." 47 2 "c." 44)] := hr
        simp only [List.mem_cons, List.not_mem_nil, or_false] at this ⊢
        rcases this with h | h | h | h <;> simp [h])) (by decide)
  have : exResolve (queryMessage (nameWire (ascii "x.c.")) 1) = exReply "x.c." 1 lA.all lDenial.all := if_pos rfl
  rw [show (⟨ascii "x.c."⟩ : Name).bytes = ascii "x.c." from rfl, this] at h2
  rw [contributes_unique h2 hc]
  exact hp

/-- A chain in another order, as another implementation might make it: accepted, too. -/
example : AuthenticationChain exWorld ((lA.all ++ lDenial.all).map (·, 60))
    (encode ((lA.all ++ lDenial.all).map (·, 60) ++ (lZone.keys.all.map (·, 7) ++ (lZone.ds.all.reverse.map (·, 8) ++ (lRoot.all.map (·, 9) ++ []))))) := by
  refine ⟨[lZone.keys, lZone.ds, lRoot], _, ?_, .cons ?_ (.cons ?_ (.cons ?_ .nil)), rfl⟩
  · exact (List.perm_append_comm (l₁ := [lZone.keys, lZone.ds]) (l₂ := [lRoot]))
  · rw [List.map_map]; exact .of_eq (List.map_id _)
  · rw [List.map_map]; exact (List.Perm.of_eq (List.map_id _)).trans (List.reverse_perm _)
  · rw [List.map_map]; exact .of_eq (List.map_id _)

/-- **C104 is false** for the length, which RFC 9102 limits to 65535 octets: for every question there is a response of at most 65535 octets
from which the builder makes a proof of more than a million octets, and `finish_proof` returns it. -/
theorem C104_fails_length (dbg : Bool) (name : Name) (ty : UInt16) : ∃ resp b more proof ttl, resp.length ≤ 65535 ∧
    (ProofBuilder.new name ty).1.processResponse dbg resp = (b, .ok more) ∧ b.finish = some (proof, ttl) ∧ 1000000 < proof.length := by
  have hc : Contributes dbg (bigResponse 2000) (List.replicate 2000 (.cname ⟨bigName, bigName⟩, 60)) := bigResponse_contributes (by omega) (by omega)
  obtain ⟨b', more, h⟩ := ProofBuilder.processResponse_accepts (b := (ProofBuilder.new name ty).1) (Nat.lt_succ_self 0) hc
  obtain ⟨recs, ttl, new, _, hc', _, hnd, hnew, hkeys, e, _⟩ := ProofBuilder.processResponse_ok h
  obtain rfl := contributes_unique hc' hc
  have hsig : new = [] := by
    cases new with
    | nil => rfl
    | cons k new =>
      rcases (hkeys k).mp (by simp) with h | h
      · exact absurd h (hnew k (by simp))
      · obtain ⟨s, hs, _⟩ := mem_signers.mp h
        rw [List.map_replicate, List.mem_replicate] at hs
        exact nomatch hs.2
  subst hsig
  refine ⟨bigResponse 2000, b', more, b'.proof, b'.minTtl, ?_, h, ?_, ?_⟩
  · rw [bigResponse_length]; decide
  · unfold ProofBuilder.finish
    rw [e]
    rfl
  · have hw : (writeRR (.cname ⟨bigName, bigName⟩) 60).length = 522 := by decide +kernel
    rw [e]
    simp only [encode, List.length_append, List.length_flatten, List.map_replicate, List.sum_replicate_nat, hw]
    omega

end Dnssec.Props
