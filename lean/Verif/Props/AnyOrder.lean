import Verif.Proofs.AnyOrder
import Verif.Props.Query
import Verif.Props.Honest
import Verif.Props.Monotone

/-! # C97: responses may arrive in any order -/

namespace Dnssec.Props

open Dnssec Spec

variable {dbg : Bool} {resolve : Bytes → Bytes} {name : Name} {ty : UInt16} {out ans out' ans' : List Bytes} {b b' : ProofBuilder}
  {proof : Bytes} {ttl : UInt32}

/-- The resolver's responses to the question, and to the queries about the signers `ks` and no others, are acceptable and make at most ten queries
necessary. -/
def Answerable (dbg : Bool) (resolve : Bytes → Bytes) (name : Name) (ty : UInt16) (ks : List Name) : Prop :=
  ks.Nodup ∧ 1 + (ks.flatMap questions).length ≤ 10 ∧
  ∀ q ∈ queryMessage (writeName name.bytes) ty :: ks.flatMap signerQueries,
    ∃ recs, Contributes dbg (resolve q) recs ∧ ∀ k ∈ signers recs, k ∈ ks

/-- **C97.** Let a resolver (any, also a malicious one) answer each query with a response that depends on the query only. If the queries have been
answered in some order and a proof was the result, then whatever other order they are answered in: the builder awaits responses as long
as there are unanswered queries; it accepts the response to each of them; it has asked nothing it did not ask in the first order; and once
all are answered, the same queries have been answered and the result is a proof of the same records, with the same TTL. -/
theorem C97_any_order (h : Session dbg resolve name ty out ans b) (hf : b.finish = some (proof, ttl))
    (h' : Session dbg resolve name ty out' ans' b') :
    (b'.awaiting = true ↔ out' ≠ []) ∧
    (∀ q ∈ out', ∃ b'' more, b'.processResponse dbg (resolve q) = (b'', .ok more)) ∧
    (∃ unasked, (ans' ++ out' ++ unasked).Perm ans) ∧
    (out' = [] → ans'.Perm ans ∧ ∃ recs recs', proof = encode recs ∧ b'.finish = some (encode recs', ttl) ∧ recs'.Perm recs) := by
  obtain ⟨hp, hm, rfl, rfl⟩ : b.pending = 0 ∧ b.made ≤ 10 ∧ b.proof = proof ∧ b.minTtl = ttl := by
    unfold ProofBuilder.finish maxRequests at hf
    split at hf
    · simp at hf
    · rename_i hc
      simp only [Option.some.injEq, Prod.mk.injEq] at hf
      exact ⟨by omega, by omega, hf.1, hf.2⟩
  obtain ⟨f, hfun⟩ := contribution dbg
  obtain ⟨hsub, hqs⟩ := session_within h hm hp h'
  obtain ⟨n1, m1, s1⟩ := session_signers h
  obtain ⟨n2, m2, s2⟩ := session_signers h'
  obtain ⟨r, hr⟩ := nodup_rest n2 n1 hsub
  have hcost : cost b'.requested + cost r = cost b.requested := by
    rw [← cost_append]; exact (hr.map _).sum_nat
  have hm' : b'.made ≤ 10 := by omega
  obtain ⟨q1, p1⟩ := session_queries h hm
  obtain ⟨q2, p2⟩ := session_queries h' hm'
  have hout : out = [] := List.length_eq_zero_iff.mp (by omega)
  subst hout
  rw [List.append_nil] at q1
  have haw : b'.awaiting = true ↔ out' ≠ [] := by
    unfold ProofBuilder.awaiting maxRequests
    rw [p2]
    cases out' <;> simp [hm']
  refine ⟨haw, ?_, ⟨r.flatMap asks, ?_⟩, ?_⟩
  · intro q hq
    have hacc := hqs q (List.mem_append_right _ hq)
    have hc := (session_proof h (List.ne_nil_of_mem hacc) hfun).1 q hacc
    exact ProofBuilder.processResponse_accepts (by rw [p2]; exact List.length_pos_of_mem hq) hc
  · refine (q2.append_right _).trans (List.Perm.trans ?_ q1.symm)
    rw [List.cons_append, ← List.flatMap_append]
    exact (hr.flatMap_right _).cons _
  · intro ho
    subst ho
    rw [List.append_nil] at q2
    obtain ⟨hsub', _⟩ := session_within h' hm' (by simpa using p2) h
    have hreq : b'.requested.Perm b.requested := nodup_perm n2 n1 fun x => ⟨hsub x, hsub' x⟩
    have hans : ans'.Perm ans := q2.trans (((hreq.flatMap_right _).cons _).trans q1.symm)
    have hne : ans ≠ [] := by
      intro e
      have := q1.length_eq
      rw [e] at this
      simp at this
    have hne' : ans' ≠ [] := fun e => hne (by rw [e] at hans; exact hans.nil_eq.symm)
    obtain ⟨_, e1, t1⟩ := session_proof h hne hfun
    obtain ⟨_, e2, t2⟩ := session_proof h' hne' hfun
    have hrec := hans.flatMap_right (fun q => f (resolve q))
    refine ⟨hans, _, _, e1, ?_, hrec⟩
    have ht : b'.minTtl = b.minTtl :=
      isMinTtl_unique t2 ⟨fun r hr => t1.1 r (hrec.mem_iff.mp hr), t1.2.imp fun r hr => ⟨hrec.mem_iff.mpr hr.1, hr.2⟩⟩
    unfold ProofBuilder.finish maxRequests
    rw [if_neg (by simp at p2; omega), ← e2, ht]

theorem answerable_within {ks : List Name} (ha : Answerable dbg resolve name ty ks) (h : Session dbg resolve name ty out ans b) :
    (∀ k ∈ b.requested, k ∈ ks) ∧ ∀ q ∈ ans ++ out, q ∈ queryMessage (writeName name.bytes) ty :: ks.flatMap signerQueries := by
  have step : ∀ {out2 ans2 : List Bytes} {b2 : ProofBuilder}, Session dbg resolve name ty out2 ans2 b2 →
      (∀ q ∈ ans2, q ∈ queryMessage (writeName name.bytes) ty :: ks.flatMap signerQueries) → ∀ k ∈ b2.requested, k ∈ ks := by
    intro out2 ans2 b2 h2 hs k hk
    obtain ⟨q, hq, recs, hc, hk⟩ := ((session_signers h2).2.2 k).mp hk
    obtain ⟨recs', hc', hk'⟩ := ha.2.2 q (hs q hq)
    rw [contributes_unique hc hc'] at hk
    exact hk' k hk
  induction h with
  | new =>
    refine ⟨by simp [ProofBuilder.new], fun q hq => ?_⟩
    rw [List.nil_append, List.mem_singleton] at hq
    subst hq
    rw [show (ProofBuilder.new name ty).2 = queryMessage (writeName name.bytes) ty from queryBytes_eq name ty]
    exact List.mem_cons_self
  | @respond before after answered more q b1 b2 hs hpr ih =>
    have h2 := Session.respond hs hpr
    have hans : ∀ x ∈ answered ++ [q], x ∈ queryMessage (writeName name.bytes) ty :: ks.flatMap signerQueries := by
      intro x hx
      apply ih.2
      rcases List.mem_append.mp hx with hx | hx
      · simp [hx]
      · rw [List.mem_singleton] at hx; simp [hx]
    refine ⟨step h2 hans, ?_⟩
    intro x hx
    simp only [List.mem_append, List.mem_singleton] at hx
    rcases hx with (hx | hx) | (hx | hx) | hx
    · exact hans x (by simp [hx])
    · exact hans x (by simp [hx])
    · exact ih.2 x (by simp [hx])
    · exact ih.2 x (by simp [hx])
    · obtain ⟨recs, ttl, new, _, _, _, _, _, hmem, rfl, rfl⟩ := ProofBuilder.processResponse_ok hpr
      split at hx
      · obtain ⟨k, hk, hx⟩ := List.mem_flatMap.mp hx
        rw [asks_eq_signerQueries] at hx
        exact List.mem_cons_of_mem _ (List.mem_flatMap.mpr ⟨k, step h2 hans k (List.mem_append_right _ hk), hx⟩)
      · simp at hx

theorem questions_length (ks : List Name) : (ks.flatMap questions).length = cost ks := by
  rw [List.length_flatMap]; rfl

/-- From a session of a resolver whose responses are acceptable there is a way to a proof. -/
theorem answerable_finishes {ks : List Name} (ha : Answerable dbg resolve name ty ks) : ∀ (n : Nat) (out ans : List Bytes) (b : ProofBuilder),
    Session dbg resolve name ty out ans b → 10 ≤ n + ans.length →
    ∃ ans' b', Session dbg resolve name ty [] ans' b' ∧ ∃ r, b'.finish = some r
  | n, out, ans, b, h, hn => by
    obtain ⟨hsub, hqs⟩ := answerable_within ha h
    obtain ⟨n1, m1, s1⟩ := session_signers h
    obtain ⟨r, hr⟩ := nodup_rest n1 ha.1 hsub
    have hcost : cost b.requested + cost r = cost ks := by
      rw [← cost_append]; exact (hr.map _).sum_nat
    have hle := ha.2.1
    rw [questions_length] at hle
    have hm : b.made ≤ 10 := by omega
    obtain ⟨q1, p1⟩ := session_queries h hm
    cases out with
    | nil =>
      refine ⟨ans, b, h, (b.proof, b.minTtl), ?_⟩
      unfold ProofBuilder.finish maxRequests
      rw [if_neg (by simp at p1; omega)]
    | cons q out =>
      obtain ⟨recs, hc, _⟩ := ha.2.2 q (hqs q (by simp))
      obtain ⟨b', more, hpr⟩ := ProofBuilder.processResponse_accepts (dbg := dbg) (b := b) (by rw [p1]; simp) hc
      have hl := q1.length_eq
      rw [List.length_append, List.length_cons, List.length_cons, asks_length] at hl
      cases n with
      | zero => omega
      | succ n =>
        have h2 := Session.respond (before := []) h hpr
        exact answerable_finishes ha n _ _ _ h2 (by simp; omega)

/-- **C97.** Whether a proof is the result does not depend on the order, but only on the responses: exactly if those to the question and to the queries about
some signers are acceptable, name no other signers, and the queries are at most ten. Then every order has a proof as its result. -/
theorem C97_succeeds_iff :
    ((∃ ans b r, Session dbg resolve name ty [] ans b ∧ b.finish = some r) ↔ ∃ ks, Answerable dbg resolve name ty ks) ∧
    ((∃ ks, Answerable dbg resolve name ty ks) → ∀ ans b, Session dbg resolve name ty [] ans b → ∃ r, b.finish = some r) := by
  have back : (∃ ks, Answerable dbg resolve name ty ks) → ∃ ans b r, Session dbg resolve name ty [] ans b ∧ b.finish = some r := by
    rintro ⟨ks, ha⟩
    obtain ⟨ans, b, h, r, hr⟩ := answerable_finishes ha 10 _ _ _ .new (by simp)
    exact ⟨ans, b, r, h, hr⟩
  refine ⟨⟨?_, back⟩, ?_⟩
  · rintro ⟨ans, b, r, h, hf⟩
    obtain ⟨hp, hm⟩ : b.pending = 0 ∧ b.made ≤ 10 := by
      unfold ProofBuilder.finish maxRequests at hf
      split at hf
      · simp at hf
      · omega
    obtain ⟨q1, p1⟩ := session_queries h hm
    rw [List.append_nil] at q1
    obtain ⟨n1, m1, s1⟩ := session_signers h
    obtain ⟨f, hfun⟩ := contribution dbg
    refine ⟨b.requested, n1, by rw [questions_length]; omega, fun q hq => ?_⟩
    rw [← show asks = signerQueries from funext asks_eq_signerQueries, ← queryBytes_eq, ← q1.mem_iff] at hq
    have hc := (session_proof h (List.ne_nil_of_mem hq) hfun).1 q hq
    exact ⟨_, hc, fun k hk => (s1 k).mpr ⟨q, hq, _, hc, hk⟩⟩
  · intro ha ans b h
    obtain ⟨ans', b', ⟨proof, ttl⟩, h', hf⟩ := back ha
    obtain ⟨_, _, _, e⟩ := C97_any_order h' hf h
    obtain ⟨_, recs, recs', _, e, _⟩ := e rfl
    exact ⟨_, e⟩

/-- **C97.** If the records can be written, both proofs are parsed as the same records in two orders; and if both are accepted, the same records are
verified. -/
theorem C97_same_records (h : Session dbg resolve name ty [] ans b) (hf : b.finish = some (proof, ttl)) (h' : Session dbg resolve name ty [] ans' b')
    (henc : ∀ q ∈ ans, ∀ recs, Contributes dbg (resolve q) recs → ∀ r ∈ recs, Encodable r.1) :
    ∃ proof' inp inp', b'.finish = some (proof', ttl) ∧ parseRRStream dbg proof = .ok inp ∧ parseRRStream dbg proof' = .ok inp' ∧ inp'.Perm inp ∧
      ∀ (p : Platform) fuel fuel' v v', verifyRRStream dbg p fuel inp = some (.ok v) → verifyRRStream dbg p fuel' inp' = some (.ok v') →
        ∀ r, r ∈ v.verifiedRrs ↔ r ∈ v'.verifiedRrs := by
  obtain ⟨f, hfun⟩ := contribution dbg
  obtain ⟨_, _, _, e⟩ := C97_any_order h hf h'
  obtain ⟨hans, recs, recs', _, e, _⟩ := e rfl
  have hb : b.proof = proof := by
    unfold ProofBuilder.finish at hf
    split at hf
    · simp at hf
    · simp only [Option.some.injEq, Prod.mk.injEq] at hf; exact hf.1
  have hb' : b'.proof = encode recs' := by
    unfold ProofBuilder.finish at e
    split at e
    · simp at e
    · simp only [Option.some.injEq, Prod.mk.injEq] at e; exact e.1
  have hne : ∀ {a : List Bytes} {c : ProofBuilder}, Session dbg resolve name ty [] a c → a ≠ [] := by
    intro a c hs ha
    subst ha
    obtain ⟨qs, hrun, hq⟩ := session_history hs
    obtain ⟨ks, _, k2, _⟩ := (run_inv hrun).queries
    have := hq.length_eq
    rw [k2] at this
    simp at this
  obtain ⟨c1, e1, _⟩ := session_proof h (hne h) hfun
  obtain ⟨c2, e2, _⟩ := session_proof h' (hne h') hfun
  have hrec := hans.flatMap_right (fun q => f (resolve q))
  have henc1 : ∀ r ∈ ans.flatMap (fun q => f (resolve q)), Encodable r.1 := by
    intro r hr
    obtain ⟨q, hq, hr⟩ := List.mem_flatMap.mp hr
    exact henc q hq _ (c1 q hq) r hr
  refine ⟨_, (ans.flatMap fun q => f (resolve q)).map Prod.fst, (ans'.flatMap fun q => f (resolve q)).map Prod.fst, e, ?_, ?_, hrec.map _, ?_⟩
  · rw [← hb, e1]; exact C04_stream_of_writes_partial _ _ henc1
  · rw [← hb', e2]; exact C04_stream_of_writes_partial _ _ (fun r hr => henc1 r (hrec.mem_iff.mp hr))
  · intro p fuel fuel' v v' hv hv' r
    exact C36_same_records (hrec.map _).symm hv hv' r

/-- **C97.** So it is for `build_proof`: if the server answers the queries in the order of some session (servers may answer in any order, RFC 7766 6.2.1.1), and
a proof results in another order, the function returns a proof of the same records with the same TTL, whatever follows in the stream. -/
theorem C97_driver (hn : Obtainable name) (h : Session dbg resolve name ty out ans b) (hf : b.finish = some (proof, ttl))
    (h' : Session dbg resolve name ty [] ans' b') (hl : ∀ q ∈ ans', (resolve q).length ≤ 65535) (rest sent : Bytes) (w : Nat) :
    ∃ recs recs' s', proof = encode recs ∧ recs'.Perm recs ∧
      buildProof dbg ans'.length ⟨(ans'.map fun q => frame (resolve q)).flatten ++ rest, 2 * ans'.length + w, sent⟩ name ty =
        some (s', .ok (encode recs', ttl)) ∧ s'.incoming = rest := by
  obtain ⟨_, _, _, e⟩ := C97_any_order h hf h'
  obtain ⟨_, recs, recs', e1, e2, e3⟩ := e rfl
  obtain ⟨qs, hrun, hq⟩ := session_history h'
  have hd := C47_driver_complete hn hrun e2 (by
    intro m hm
    obtain ⟨q, hq, rfl⟩ := List.mem_map.mp hm
    exact hl q hq) rest sent w
  rw [List.append_nil] at hq
  rw [List.length_map, List.map_map, hq.length_eq] at hd
  exact ⟨recs, recs', _, e1, e3, hd, rfl⟩

/-- Two sessions for the address of `x.c.` with the resolver of `exWorld`: in the second one, the DS set of `c.` comes before its keys. The proofs are different. -/
theorem exTwoOrders : ∃ ans ans' b b' proof proof', Session true exResolve ⟨ascii "x.c."⟩ 1 [] ans b ∧ b.finish = some (proof, 300) ∧
    Session true exResolve ⟨ascii "x.c."⟩ 1 [] ans' b' ∧ b'.finish = some (proof', 300) ∧ proof ≠ proof' ∧ ans ≠ ans' := by
  have s1 := Session.respond (before := []) (after := []) (Session.new (dbg := true) (resolve := exResolve) (name := ⟨ascii "x.c."⟩) (ty := 1))
    (b' := exAnswered (lA.all ++ lDenial.all) [⟨ascii "c."⟩] 2 3) (more := [queryBytes ⟨ascii "c."⟩ 48, queryBytes ⟨ascii "c."⟩ 43]) (by decide +kernel)
  have s2 := Session.respond (before := []) (after := [queryBytes ⟨ascii "c."⟩ 43]) s1
    (b' := exAnswered (lA.all ++ lDenial.all ++ lZone.keys.all) [⟨ascii "c."⟩] 1 3) (more := []) (by decide +kernel)
  have s3 := Session.respond (before := []) (after := []) s2
    (b' := exAnswered (lA.all ++ lDenial.all ++ lZone.keys.all ++ lZone.ds.all) [⟨ascii "c."⟩, ⟨ascii "."⟩] 1 4)
    (more := [queryBytes ⟨ascii "."⟩ 48]) (by decide +kernel)
  have s4 := Session.respond (before := []) (after := []) s3
    (b' := exAnswered (lA.all ++ lDenial.all ++ lZone.keys.all ++ lZone.ds.all ++ lRoot.all) [⟨ascii "c."⟩, ⟨ascii "."⟩] 0 4)
    (more := []) (by decide +kernel)
  have t2 := Session.respond (before := [queryBytes ⟨ascii "c."⟩ 48]) (after := []) s1
    (b' := exAnswered (lA.all ++ lDenial.all ++ lZone.ds.all) [⟨ascii "c."⟩, ⟨ascii "."⟩] 2 4) (more := [queryBytes ⟨ascii "."⟩ 48]) (by decide +kernel)
  have t3 := Session.respond (before := [queryBytes ⟨ascii "c."⟩ 48]) (after := []) t2
    (b' := exAnswered (lA.all ++ lDenial.all ++ lZone.ds.all ++ lRoot.all) [⟨ascii "c."⟩, ⟨ascii "."⟩] 1 4)
    (more := []) (by decide +kernel)
  have t4 := Session.respond (before := []) (after := []) t3
    (b' := exAnswered (lA.all ++ lDenial.all ++ lZone.ds.all ++ lRoot.all ++ lZone.keys.all) [⟨ascii "c."⟩, ⟨ascii "."⟩] 0 4)
    (more := []) (by decide +kernel)
  exact ⟨_, _, _, _, _, _, s4, rfl, t4, rfl, by decide +kernel, by decide +kernel⟩

/-- The responses of the resolver of `exWorld` are acceptable. -/
example : ∃ ks, Answerable true exResolve ⟨ascii "x.c."⟩ 1 ks := by
  obtain ⟨_, _, _, _, _, _, h, hf, _⟩ := exTwoOrders
  exact C97_succeeds_iff.1.mp ⟨_, _, _, h, hf⟩

end Dnssec.Props
