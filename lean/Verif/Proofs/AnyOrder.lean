import Verif.Proofs.Honest

/-! # Sessions that differ in the order of responses -/

namespace Dnssec

open Spec

variable {dbg : Bool} {resolve : Bytes → Bytes} {name : Name} {ty : UInt16}

/-- A session is a history of the builder. -/
theorem session_history {out ans : List Bytes} {b : ProofBuilder} (h : Session dbg resolve name ty out ans b) :
    ∃ qs, Run dbg name ty (ans.map resolve) [] qs b ∧ qs.Perm (ans ++ out) := by
  induction h with
  | new => exact ⟨_, .new, .refl _⟩
  | @respond before after answered more q b b' _ hp ih =>
    obtain ⟨qs, h1, h2⟩ := ih
    refine ⟨qs ++ more, by rw [List.map_append]; exact Run.accept h1 hp, ?_⟩
    have e1 : (answered ++ (before ++ q :: after)).Perm (answered ++ [q] ++ (before ++ after)) := by
      rw [List.append_assoc]
      exact List.Perm.append_left _ List.perm_middle
    have e2 := (h2.trans e1).append_right more
    rw [List.append_assoc (answered ++ [q])] at e2
    exact e2

/-- As long as the cap is not exceeded, the queries issued are those about the signers seen. -/
theorem session_queries {out ans : List Bytes} {b : ProofBuilder} (h : Session dbg resolve name ty out ans b) (hm : b.made ≤ 10) :
    (ans ++ out).Perm (queryBytes name ty :: b.requested.flatMap asks) ∧ b.pending = out.length := by
  obtain ⟨qs, h1, h2⟩ := session_history h
  have inv := run_inv h1
  obtain ⟨ks, _, k2, k3, _⟩ := inv.queries
  have e := k3 hm
  subst e
  have hl := h2.length_eq
  have a := inv.pending
  have c := inv.made
  rw [k2, List.length_cons, asks_length, List.length_append] at hl
  rw [List.length_map] at a
  exact ⟨(k2 ▸ h2).symm, by omega⟩

theorem session_signers {out ans : List Bytes} {b : ProofBuilder} (h : Session dbg resolve name ty out ans b) :
    b.requested.Nodup ∧ b.made = 1 + cost b.requested ∧
      ∀ k, k ∈ b.requested ↔ ∃ q ∈ ans, ∃ recs, Contributes dbg (resolve q) recs ∧ k ∈ signers recs := by
  obtain ⟨qs, h1, _⟩ := session_history h
  have inv := run_inv h1
  refine ⟨inv.signers.1, inv.made, fun k => (inv.signers.2 k).trans ?_⟩
  constructor
  · rintro ⟨resp, hr, h⟩
    obtain ⟨q, hq, rfl⟩ := List.mem_map.mp hr
    exact ⟨q, hq, h⟩
  · rintro ⟨q, hq, h⟩
    exact ⟨_, List.mem_map_of_mem hq, h⟩

/-- If a session has ended with a proof, all queries of another one are among those of the first. -/
theorem session_within {out ans out' ans' : List Bytes} {b b' : ProofBuilder} (h : Session dbg resolve name ty out ans b) (hm : b.made ≤ 10)
    (hp : b.pending = 0) (h' : Session dbg resolve name ty out' ans' b') :
    (∀ k ∈ b'.requested, k ∈ b.requested) ∧ ∀ q ∈ ans' ++ out', q ∈ ans := by
  obtain ⟨hq, hl⟩ := session_queries h hm
  have hout : out = [] := List.length_eq_zero_iff.mp (by omega)
  subst hout
  rw [List.append_nil] at hq
  have step : ∀ {out2 ans2 : List Bytes} {b2 : ProofBuilder}, Session dbg resolve name ty out2 ans2 b2 → (∀ q ∈ ans2, q ∈ ans) →
      ∀ k ∈ b2.requested, k ∈ b.requested := by
    intro out2 ans2 b2 h2 hs k hk
    obtain ⟨q, hq, recs, hc, hk⟩ := ((session_signers h2).2.2 k).mp hk
    exact ((session_signers h).2.2 k).mpr ⟨q, hs q hq, recs, hc, hk⟩
  induction h' with
  | new =>
    refine ⟨by simp [ProofBuilder.new], fun q hq' => hq.mem_iff.mpr ?_⟩
    rw [List.nil_append, List.mem_singleton] at hq'
    subst hq'
    exact List.mem_cons_self
  | @respond before after answered more q b1 b2 hs hpr ih =>
    have h2 := Session.respond hs hpr
    have hans : ∀ x ∈ answered ++ [q], x ∈ ans := by
      intro x hx
      apply ih.2
      rcases List.mem_append.mp hx with hx | hx
      · simp [hx]
      · rw [List.mem_singleton] at hx; simp [hx]
    refine ⟨step h2 hans, ?_⟩
    intro x hx
    simp only [List.mem_append, List.mem_singleton] at hx
    rcases hx with (hx | hx) | (hx | hx) | hx
    · exact hans x (by simp [hx])
    · exact hans x (by simp [hx])
    · exact ih.2 x (by simp [hx])
    · exact ih.2 x (by simp [hx])
    · obtain ⟨recs, ttl, new, _, _, _, _, _, hmem, rfl, rfl⟩ := ProofBuilder.processResponse_ok hpr
      split at hx
      · obtain ⟨k, hk, hx⟩ := List.mem_flatMap.mp hx
        rw [hq.mem_iff]
        refine List.mem_cons_of_mem _ (List.mem_flatMap.mpr ⟨k, step h2 hans k ?_, hx⟩)
        exact List.mem_append_right _ hk
      · simp at hx

theorem nodup_rest {a b : List Name} (ha : a.Nodup) (hb : b.Nodup) (h : ∀ x ∈ a, x ∈ b) : ∃ r, (a ++ r).Perm b := by
  refine ⟨b.filter (fun x => x ∉ a), nodup_perm ?_ hb ?_⟩
  · refine List.nodup_append.mpr ⟨ha, hb.filter _, ?_⟩
    intro x hx y hy e
    subst e
    simp [hx] at hy
  · intro x
    rw [List.mem_append, List.mem_filter]
    constructor
    · rintro (hx | hx)
      · exact h x hx
      · exact hx.1
    · intro hx
      by_cases hxa : x ∈ a
      · exact Or.inl hxa
      · exact Or.inr ⟨hx, by simp [hxa]⟩

/-- What a response contributes, as a function. -/
theorem contribution (dbg : Bool) : ∃ f : Bytes → List (RR × UInt32), ∀ resp recs, Contributes dbg resp recs → f resp = recs := by
  refine ⟨fun resp => (Classical.epsilon (fun recs => Contributes dbg resp recs)), fun resp recs hc => ?_⟩
  have : Contributes dbg resp (Classical.epsilon (fun recs => Contributes dbg resp recs)) := Classical.epsilon_spec ⟨recs, hc⟩
  exact contributes_unique this hc

/-- What is put into the proof by the responses to the queries answered, in order. -/
theorem session_proof {out ans : List Bytes} {b : ProofBuilder} (h : Session dbg resolve name ty out ans b) (hne : ans ≠ [])
    {f : Bytes → List (RR × UInt32)} (hf : ∀ resp recs, Contributes dbg resp recs → f resp = recs) :
    (∀ q ∈ ans, Contributes dbg (resolve q) (f (resolve q))) ∧
      b.proof = encode (ans.flatMap fun q => f (resolve q)) ∧ IsMinTtl b.minTtl (ans.flatMap fun q => f (resolve q)) := by
  obtain ⟨qs, h1, _⟩ := session_history h
  obtain ⟨recss, hl, hz, hp, ht⟩ := run_proof h1 rfl
  have key : ∀ (acc : List Bytes) (rs : List (List (RR × UInt32))), rs.length = acc.length → (∀ p ∈ acc.zip rs, Contributes dbg p.1 p.2) →
      rs = acc.map f := by
    intro acc
    induction acc with
    | nil => intro rs hl _; exact List.length_eq_zero_iff.mp hl
    | cons a acc ih =>
      intro rs hl hz
      cases rs with
      | nil => simp at hl
      | cons r rs =>
        rw [List.map_cons, hf a r (hz (a, r) (by simp)), ← ih rs (by simpa using hl) (fun p hp => hz p (by simp [hp]))]
  have e := key _ _ hl hz
  have e2 : recss.flatten = ans.flatMap fun q => f (resolve q) := by
    rw [e, List.map_map, List.flatMap_def]; rfl
  rw [e2] at hp ht
  refine ⟨?_, hp, ?_⟩
  · intro q hq
    obtain ⟨i, hi, e⟩ := List.getElem_of_mem (List.mem_map_of_mem (f := resolve) hq)
    have := hz ((ans.map resolve)[i], recss[i]'(by omega))
      (by rw [← List.getElem_zip (h := by simp [List.length_zip]; simp at hi; simp at hl; omega)]; exact List.getElem_mem _)
    rw [e] at this
    rw [hf _ _ this]
    exact this
  rcases ht with ⟨ht, _⟩ | ht
  · exact absurd (List.map_eq_nil_iff.mp ht) hne
  · exact ht

end Dnssec
