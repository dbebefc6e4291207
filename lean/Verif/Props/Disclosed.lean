import Verif.Proofs.Disclosed
import Verif.Props.Honest
import Verif.Props.Query
import Verif.Props.Doh

/-! # C120: what a resolver is asked -/

set_option autoImplicit false

namespace Dnssec.Props

open Dnssec Dnssec.Spec

/-- **C120, for resolvers that answer from correctly signed zones.** In every session, however far it has got and in whatever order the queries are answered: all
queries made are the question itself, or for the keys or the DS set of a zone that some name of the answer is in. Missing: resolvers that
do not, for which it is false (next theorem). -/
theorem C120_zones_of_the_answer_partial {p : Platform} {w : World} {dbg : Bool} {name : Name} {ty : UInt16} {resolve : Bytes → Bytes}
    (hw : w.Signed p) (hs : w.SignedWithin) (hr : Honest dbg w name ty resolve)
    {outstanding answered : List Bytes} {b : ProofBuilder} (h : Session dbg resolve name ty outstanding answered b)
    {q : Bytes} (hq : q ∈ answered ∨ q ∈ outstanding) :
    q = queryMessage (nameWire name.bytes) ty ∨ ∃ z, q ∈ zoneQueries z ∧ ∃ s ∈ w.answer, NameWithin s.owner z := by
  obtain ⟨qs, _, h2, h3⟩ := session_run hw hr h
  rcases h3 q (h2.mem_iff.mpr (List.mem_append.mpr hq)) with e | ⟨k, hk, hq⟩
  · exact Or.inl (by rw [e, queryBytes_eq, writeName_eq_nameWire])
  · rw [asks_eq_zoneQueries] at hq
    exact Or.inr ⟨k, hq, needs_within hw hs (zoneNames_needed hw hk)⟩

/-- The world of C67 is such, and there is a session with its resolver in which all queries are answered. -/
example : exWorld.Signed lenPlatform ∧ exWorld.SignedWithin ∧ Honest true exWorld ⟨ascii "x.c."⟩ 1 exResolve ∧
    ∃ answered b, Session true exResolve ⟨ascii "x.c."⟩ 1 [] answered b := by
  refine ⟨exSigned, ?_, exHonest true, ?_⟩
  · intro s hs sig hsig
    simp only [World.sets, exWorld, List.mem_append, List.mem_cons, List.not_mem_nil, or_false, List.flatMap_cons, List.flatMap_nil,
      List.append_nil] at hs
    rcases hs with (rfl | rfl) | rfl | rfl | rfl <;> simp only [lA, lDenial, lRoot, lZone, List.mem_singleton] at hsig <;> subst hsig
    · exact ⟨[ascii "x", ascii "c"], [ascii "c"], by decide, by decide, [ascii "x"], rfl⟩
    · exact ⟨[ascii "a", ascii "c"], [ascii "c"], by decide, by decide, [ascii "a"], rfl⟩
    · exact ⟨[], [], by decide, by decide, [], rfl⟩
    · exact ⟨[ascii "c"], [ascii "c"], by decide, by decide, [], rfl⟩
    · exact ⟨[ascii "c"], [], by decide, by decide, [ascii "c"], rfl⟩
  · obtain ⟨ans, b, hs, _⟩ := session_fifo exSigned (exHonest true) (by decide) 10 _ [] _ (by simp) .new .new
    exact ⟨ans, b, hs⟩

/-- **C120, for any resolver.** Whatever is asked beyond the question is about a name that an RRSIG in an accepted response gave as its signer. Missing: that this name
has to do with the question. -/
theorem C120_named_in_responses_partial {dbg : Bool} {name : Name} {ty : UInt16} {acc rej qs : List Bytes} {b : ProofBuilder}
    (h : Run dbg name ty acc rej qs b) {q : Bytes} (hq : q ∈ qs) :
    q = queryMessage (nameWire name.bytes) ty ∨
    ∃ z, q ∈ zoneQueries z ∧ ∃ resp ∈ acc, ∃ recs, Contributes dbg resp recs ∧ ∃ s, RR.rrsig s ∈ recs.map Prod.fst ∧ s.keyName = z := by
  have inv := run_inv h
  obtain ⟨ks, k1, k2, _⟩ := inv.queries
  rw [k2] at hq
  rcases List.mem_cons.mp hq with e | hq
  · exact Or.inl (by rw [e, queryBytes_eq, writeName_eq_nameWire])
  · obtain ⟨k, hk, hq⟩ := List.mem_flatMap.mp hq
    obtain ⟨resp, hresp, recs, hc, hs⟩ := (inv.signers.2 k).mp (k1.subset hk)
    rw [asks_eq_zoneQueries] at hq
    exact Or.inr ⟨k, hq, resp, hresp, recs, hc, mem_signers.mp hs⟩

/-- **C120, for the client of DNS over HTTPS, with any server.** Each URL requested is the endpoint with the question, or with a query for the keys or the DS set of a name that
an RRSIG in a response to one of the requests gave as its signer; and no query is longer than 283 octets. Missing as above. -/
theorem C120_doh_partial {dbg : Bool} {p : Platform} {fuel rounds : Nat} {js : Js} {domain ty endpoint : Bytes} {fetch : Nat → Bytes → Fetch}
    {urls : List Bytes} {out : JsOutcome} (h : lookupDoh dbg p fuel rounds js domain ty endpoint fetch = some (urls, out))
    {url : Bytes} (hu : url ∈ urls) :
    ∃ code n q, NamesType ty code ∧ DomainName domain n ∧ url = dohGet endpoint q ∧ q.length ≤ 283 ∧
      (q = queryMessage (nameWire n.bytes) code ∨ ∃ z, q ∈ zoneQueries z ∧ ∃ k u body, u ∈ urls ∧ fetch k u = .body body ∧
        ∃ recs, Contributes dbg body recs ∧ ∃ s, RR.rrsig s ∈ recs.map Prod.fst ∧ s.keyName = z) := by
  rcases C63_course h with ⟨_, e, _⟩ | ⟨_, _, _, e, _⟩ | ⟨code, n, asked, bodies, acc, rej, qs, b, ht, hd, ha, hrun, hi, hc⟩
  · rw [e] at hu; simp at hu
  · rw [e] at hu; simp at hu
  · have hsub : ∃ q ∈ qs, url = dohGet endpoint q := by
      rcases hc with ⟨rfl, rfl, _⟩ | ⟨q, rest, e, rfl, rfl, _⟩
      · obtain ⟨q, hq, e⟩ := List.mem_map.mp hu
        exact ⟨q, hq, e.symm⟩
      · obtain ⟨q', hq, e⟩ := List.mem_map.mp hu
        refine ⟨q', ?_, e.symm⟩
        rcases List.mem_append.mp hq with hq | hq
        · exact List.mem_append_left _ hq
        · rw [List.mem_singleton] at hq; subst hq; simp
    have hasked : ∀ q ∈ asked, dohGet endpoint q ∈ urls := by
      rcases hc with ⟨_, rfl, _⟩ | ⟨q, rest, e, _, rfl, _⟩
      · exact fun q hq => List.mem_map.mpr ⟨q, hq, rfl⟩
      · exact fun q hq => List.mem_map.mpr ⟨q, List.mem_append_left _ hq, rfl⟩
    obtain ⟨q, hq, e⟩ := hsub
    refine ⟨code, n, q, ht, hd, e, run_query_length ⟨_, hd⟩ hrun q hq, ?_⟩
    rcases C120_named_in_responses_partial hrun hq with e | ⟨z, hz, resp, hresp, hrest⟩
    · exact Or.inl e
    · obtain ⟨k, q', hq', hf⟩ := answered_body ha ((List.mem_filter.mp (interleaving_left hi hresp)).1)
      exact Or.inr ⟨z, hz, k, _, resp, hasked q' hq', hf, hrest⟩

/-- Asked for the text records of `bank.example.`, the client of C63 requests the DS set of `c.` from a server that answers with records of `a.c.`. -/
example : (lookupDoh true lenPlatform 5 11 ⟨some, ascii "unreachable"⟩ (ascii "bank.example") (ascii "txt") (ascii "https://dns.example/q")
    (fun k _ => .body (otherReplies.getD k []))).map
      (fun r => decide (dohGet (ascii "https://dns.example/q") (queryMessage (nameWire (ascii "c.")) 43) ∈ r.1)) = some true := by
  decide +kernel

/-- **C120 is false**, for every question and any four names: there is a response, the same for all questions, to which every builder reacts
with the queries for the keys and DS sets of exactly these names, whatever it was created for. -/
theorem C120_fails_any_names {ks : List Name} (hne : ks ≠ []) (hd : ks.Nodup) (h4 : ks.length ≤ 4) (hk : ∀ k ∈ ks, ∃ ls, HasLabels k ls) :
    ∃ resp, ∀ dbg name ty, ∃ b more, (ProofBuilder.new name ty).1.processResponse dbg resp = (b, .ok more) ∧
      more.Perm (ks.flatMap zoneQueries) ∧ b.awaiting = true :=
  ⟨_, fun _ name ty => lured name ty hne hd h4 hk⟩

/-- The names can be any. -/
example : ∃ resp, ∀ dbg name ty, ∃ b more, (ProofBuilder.new name ty).1.processResponse dbg resp = (b, .ok more) ∧
    more.Perm ([⟨ascii "x.org."⟩, ⟨ascii "y.net."⟩].flatMap zoneQueries) ∧ b.awaiting = true :=
  C120_fails_any_names (by decide) (by decide) (by decide) (by
    intro k hk
    rcases List.mem_cons.mp hk with rfl | hk
    · exact ⟨[ascii "x", ascii "org"], by decide⟩
    · rw [List.mem_singleton] at hk; subst hk; exact ⟨[ascii "y", ascii "net"], by decide⟩)

end Dnssec.Props
