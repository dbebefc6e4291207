import Verif.Spec.Memory
import Verif.Proofs.Tasks
import Verif.Proofs.Ticks

/-! # Lemmas about what the HTTP server keeps for a client (C112) -/

namespace Dnssec

open Spec ProofBuilder

variable {dbg : Bool} {name : Name} {ty : UInt16}

theorem decimalAux_length : ∀ (f n k : Nat), n < 10 ^ (k + 1) → (decimalAux f n).length ≤ k + 1
  | 0, _, _, _ => by simp [decimalAux]
  | f + 1, n, k, h => by
    rw [decimalAux]
    split
    · simp
    · cases k with
      | zero => omega
      | succ k =>
        have : n / 10 < 10 ^ (k + 1) := by
          rw [Nat.pow_succ] at h
          omega
        have := decimalAux_length f (n / 10) k this
        simp only [List.length_append, List.length_cons, List.length_nil]
        omega

theorem decimal_length {n : Nat} (k : Nat) (h : n < 10 ^ (k + 1)) : (decimal n).length ≤ k + 1 := decimalAux_length n n k h

theorem httpProof_length {proof : Bytes} (h : proof.length ≤ 24903300) (ttl : UInt32) : (httpProof proof ttl).length ≤ 24903600 := by
  have h1 := decimal_length (n := proof.length) 7 (by omega)
  have h2 := decimal_length (n := ttl.toNat) 9 (by have := ttl.toNat_lt; omega)
  have e1 : (ascii "HTTP/1.1 200 OK\r\nContent-Length: ").length ≤ 40 := by decide +kernel
  have e2 : (ascii "\r\nContent-Type: application/octet-stream\r\nCache-Control: public, max-age=").length ≤ 100 := by decide +kernel
  have e3 : (ascii ", s-maxage=").length ≤ 20 := by decide +kernel
  have e4 : (ascii "\r\nAccess-Control-Allow-Origin: *\r\n\r\n").length ≤ 50 := by decide +kernel
  simp only [httpProof, List.length_append]
  omega

theorem httpError_length {status msg : Bytes} (h : status.length ≤ 60) (h' : msg.length ≤ 60) : (httpError status msg).length ≤ 24903600 := by
  have h1 := decimal_length (n := msg.length) 1 (by omega)
  have e1 : (ascii "HTTP/1.1 ").length ≤ 40 := by decide +kernel
  have e2 : (ascii "\r\nContent-Length: ").length ≤ 40 := by decide +kernel
  have e3 : (ascii "\r\nContent-Type: text/plain\r\nAccess-Control-Allow-Origin: *\r\n\r\n").length ≤ 100 := by decide +kernel
  simp only [httpError, List.length_append]
  omega

/-- What is said in error messages is short, and what is looked up is a proper name. -/
def Decision.Fits : Decision → Prop
  | .reject status msg => status.length ≤ 60 ∧ msg.length ≤ 60
  | .lookup name _ => Obtainable name

theorem badRequest_fits : badRequest.Fits := ⟨by decide +kernel, by decide +kernel⟩

theorem decidePath_fits (path : Bytes) : (decidePath path).Fits := by
  unfold decidePath
  split
  · exact ⟨by decide +kernel, by decide +kernel⟩
  · split
    · exact badRequest_fits
    · split
      · exact ⟨by decide +kernel, by decide +kernel⟩
      · split
        · exact ⟨by decide +kernel, by decide +kernel⟩
        · rename_i h
          split
          · exact obtainable_of h
          · exact badRequest_fits

theorem decideLine_fits (line : Bytes) : (decideLine line).Fits := by
  unfold decideLine
  split
  · split
    · exact badRequest_fits
    · split
      · exact badRequest_fits
      · exact decidePath_fits _
  · exact badRequest_fits

theorem decideBuf_fits {buf : Bytes} {d : Decision} (h : decideBuf dbg buf = some d) : d.Fits := by
  unfold decideBuf at h
  split at h
  · split at h
    · cases h; exact decideLine_fits _
    · split at h
      · cases h
      · cases h; exact badRequest_fits
  · cases h; exact badRequest_fits

/-- What holds of a task at every moment. -/
def Phase.Fits (dbg : Bool) : Phase → Prop
  | .reading buf => buf.length < 4096
  | .connecting name _ => Obtainable name
  | .driving name ty b s => Obtainable name ∧ b.awaiting = true ∧ s.incoming.length ≤ 65536 ∧
      ∃ acc qs, Run dbg name ty acc [] qs b ∧ ∀ m ∈ acc, m.length ≤ 65535
  | .finished _ out => out.length ≤ 24903600
  | .panicked => True

theorem readExact_none {s : Stream} {n : Nat} (h : s.readExact n = none) : s.incoming.length < n := by
  unfold Stream.readExact at h
  split at h
  · assumption
  · cases h

theorem readExact_some {s s' : Stream} {n : Nat} {m : Bytes} (h : s.readExact n = some (m, s')) :
    m.length = n ∧ s.incoming.length = n + s'.incoming.length := by
  unfold Stream.readExact at h
  split at h
  · cases h
  · cases h
    rw [List.length_take, List.length_drop]
    omega

theorem readResponse_none {s : Stream} (h : readResponse s = none) : s.incoming.length ≤ 65536 := by
  unfold readResponse at h
  split at h
  · rename_i a b s1 e
    have h1 := readExact_some e
    have h2 := readExact_none h
    have := (ofBe16 a b).toNat_lt
    omega
  · rename_i hne
    cases e : s.readExact 2 with
    | none => have := readExact_none e; omega
    | some v =>
      obtain ⟨m, s1⟩ := v
      obtain ⟨h1, h2⟩ := readExact_some e
      match m, h1 with
      | [a, b], _ => exact absurd e (hne a b s1)

theorem readResponse_length {s s' : Stream} {m : Bytes} (h : readResponse s = some (m, s')) : m.length ≤ 65535 := by
  unfold readResponse at h
  split at h
  · rename_i a b s1 e
    have h2 := readExact_some h
    have := (ofBe16 a b).toNat_lt
    omega
  · cases h

theorem run_proof_le {acc qs : List Bytes} {b : ProofBuilder} (h : Run dbg name ty acc [] qs b) (hm : b.made ≤ 10)
    (hacc : ∀ m ∈ acc, m.length ≤ 65535) : b.proof.length ≤ 24903300 := by
  have h1 := run_size h
  have h2 := flatten_length_le hacc
  have h3 := (run_inv h).pending
  have h4 : acc.length * 65535 ≤ 10 * 65535 := Nat.mul_le_mul_right _ (by omega)
  rw [List.append_nil] at h1
  omega

theorem lookupDone_fits (r : Res Unit (Bytes × UInt32)) (h : ∀ proof ttl, r = .ok (proof, ttl) → proof.length ≤ 24903300) :
    (lookupDone name ty r).Fits dbg := by
  cases r with
  | panic => trivial
  | ok v => exact httpProof_length (h v.1 v.2 rfl) v.2
  | err e => exact httpError_length (by decide +kernel) (by decide +kernel)

theorem pump_fits : ∀ (f : Nat) (b : ProofBuilder) (s : Stream) (acc qs : List Bytes), Run dbg name ty acc [] qs b → (∀ m ∈ acc, m.length ≤ 65535) →
    10 ≤ f + acc.length →
    (∀ b' s', pump dbg f b s = ((b', s'), none) → b'.awaiting = true ∧ s'.incoming.length ≤ 65536 ∧
      ∃ acc qs, Run dbg name ty acc [] qs b' ∧ ∀ m ∈ acc, m.length ≤ 65535) ∧
    (∀ p proof ttl, pump dbg f b s = (p, some (.ok (proof, ttl))) → proof.length ≤ 24903300)
  | f, b, s, acc, qs, hrun, hacc, hl => by
    have hpend := (run_inv hrun).pending
    by_cases ha : b.awaiting = true
    · have ha' := ha
      simp only [ProofBuilder.awaiting, maxRequests, Bool.and_eq_true, decide_eq_true_eq] at ha'
      cases f with
      | zero => omega
      | succ f =>
        rw [pump, if_pos ha]
        cases hr : readResponse s with
        | none =>
          refine ⟨fun b' s' e => ?_, fun p r t e => by simp at e⟩
          simp only [Prod.mk.injEq, and_true] at e
          obtain ⟨rfl, rfl⟩ := e
          exact ⟨ha, readResponse_none hr, acc, qs, hrun, hacc⟩
        | some y =>
          obtain ⟨resp, s1⟩ := y
          simp only
          cases hp : b.processResponse dbg resp with
          | mk b1 res =>
            cases res with
            | err e => exact ⟨fun b' s' e => by simp at e, fun p r t e => by simp at e⟩
            | panic => exact ⟨fun b' s' e => by simp at e, fun p r t e => by simp at e⟩
            | ok more =>
              have hrun' := Run.accept hrun hp
              cases hs : sendAll s1 more with
              | none =>
                simp only [hs]
                exact ⟨fun b' s' e => by simp at e, fun p r t e => by simp at e⟩
              | some s2 =>
                simp only [hs]
                refine pump_fits f b1 s2 _ _ hrun' ?_ (by simp; omega)
                intro m hm
                rcases List.mem_append.mp hm with hm | hm
                · exact hacc m hm
                · rw [List.mem_singleton.mp hm]; exact readResponse_length hr
    · have e1 : pump dbg f b s = match b.finish with
          | some r => ((b, s), some (.ok r))
          | none => ((b, s), some (.err ())) := by cases f <;> (rw [pump, if_neg ha]; cases b.finish <;> rfl)
      rw [e1]
      cases hfin : b.finish with
      | none => exact ⟨fun b' s' e => by simp at e, fun p r t e => by simp at e⟩
      | some v =>
        refine ⟨fun b' s' e => by simp at e, fun p proof ttl e => ?_⟩
        simp only [Prod.mk.injEq, Option.some.injEq, Res.ok.injEq] at e
        have hb : b.proof = proof ∧ b.made ≤ 10 := by
          unfold ProofBuilder.finish at hfin
          split at hfin
          · simp at hfin
          · rename_i hc
            simp only [Option.some.injEq] at hfin
            rw [← hfin] at e
            exact ⟨(Prod.mk.inj e.2).1, by have : maxRequests = 10 := rfl; omega⟩
        rw [← hb.1]
        exact run_proof_le hrun hb.2 hacc

theorem pumped_fits (hn : Obtainable name) {acc qs : List Bytes} {b : ProofBuilder} (s : Stream) (hrun : Run dbg name ty acc [] qs b)
    (hacc : ∀ m ∈ acc, m.length ≤ 65535) : (pumped dbg name ty b s).Fits dbg := by
  obtain ⟨h1, h2⟩ := pump_fits 10 b s acc qs hrun hacc (by omega)
  unfold pumped
  cases hp : pump dbg 10 b s with
  | mk bs res =>
    cases res with
    | none => exact ⟨hn, h1 _ _ hp⟩
    | some r => exact lookupDone_fits r fun proof ttl e => h2 _ proof ttl (e ▸ hp)

theorem answer_fits {d : Decision} (h : d.Fits) : ((answer (fun _ _ => none) d).toPhase).Fits dbg := by
  cases d with
  | reject s m => exact httpError_length h.1 h.2
  | lookup n t => exact httpError_length (by decide +kernel) (by decide +kernel)

theorem step_fits {t : Task} (h : t.phase.Fits dbg) : (t.step dbg).phase.Fits dbg := by
  obtain ⟨phase, client, resolver⟩ := t
  cases phase with
  | reading buf =>
    have hb : buf.length < 4096 := h
    cases client with
    | nil => exact Nat.zero_le _
    | cons e es =>
      cases e with
      | error => exact Nat.zero_le _
      | wouldBlock => exact h
      | data chunk =>
        simp only [Task.step, clientEvent]
        have hlen : (buf ++ chunk.take (httpBufSize - buf.length)).length ≤ httpBufSize := by
          rw [List.length_append, List.length_take]
          have : httpBufSize = 4096 := rfl
          omega
        generalize chunk.take (httpBufSize - buf.length) = c at *
        split
        · exact Nat.zero_le _
        · split
          · unfold requestRead
            split
            · trivial
            · rename_i e
              exact decideBuf_fits e
            · rename_i e
              exact answer_fits (decideBuf_fits e)
          · split
            · exact answer_fits ⟨by decide +kernel, by decide +kernel⟩
            · have : httpBufSize = 4096 := rfl
              show (buf ++ c).length < 4096
              omega
  | connecting name ty =>
    have hn : Obtainable name := h
    cases resolver with
    | none => exact lookupDone_fits (.err ()) (fun _ _ e => by cases e)
    | some wc =>
      simp only [Task.step]
      split
      · exact lookupDone_fits (.err ()) (fun _ _ e => by cases e)
      · exact pumped_fits hn _ Run.new (by simp)
  | driving name ty b s =>
    obtain ⟨hn, _, _, acc, qs, hrun, hacc⟩ := h
    simp only [Task.step]
    split
    · exact pumped_fits hn _ hrun hacc
    · exact lookupDone_fits (.err ()) (fun _ _ e => by cases e)
  | finished a o => exact h
  | panicked => exact h

theorem runServer_fits (evs : List ServerEvent) : ∀ t ∈ (runServer dbg evs).tasks, t.phase.Fits dbg := by
  have key : ∀ (evs : List ServerEvent) (s : ServerState), (∀ t ∈ s.tasks, t.phase.Fits dbg) →
      ∀ t ∈ (evs.foldl (ServerState.step dbg) s).tasks, t.phase.Fits dbg := by
    intro evs
    induction evs with
    | nil => intro s h; exact h
    | cons e evs ih =>
      intro s h
      refine ih _ ?_
      unfold ServerState.step
      cases e with
      | acceptFails => exact h
      | accept c r =>
        simp only
        split
        · intro t ht
          rcases List.mem_append.mp ht with ht | ht
          · exact h t ht
          · rw [List.mem_singleton.mp ht]
            show ([] : Bytes).length < 4096
            decide
        · exact h
      | run i =>
        simp only
        split
        · intro t ht
          obtain ⟨j, hj⟩ := List.mem_iff_getElem?.mp ht
          rw [List.getElem?_modify] at hj
          cases hj' : s.tasks[j]? with
          | none => rw [hj'] at hj; simp at hj
          | some u =>
            have hu := h u (List.mem_iff_getElem?.mpr ⟨j, hj'⟩)
            rw [hj'] at hj
            by_cases hi : i = j
            · simp [hi] at hj
              rw [← hj]
              exact step_fits hu
            · simp [hi] at hj
              rw [← hj]
              exact hu
        · exact h
  exact key evs _ (by simp)

theorem sum_le_of_le {k : Nat} : ∀ {l : List Name}, (∀ n ∈ l, n.bytes.length ≤ k) → (l.map (·.bytes.length)).sum ≤ k * l.length
  | [], _ => by simp
  | n :: l, h => by
    have h1 := sum_le_of_le (fun x hx => h x (by simp [hx])) (l := l)
    have h2 := h n (by simp)
    simp only [List.map_cons, List.sum_cons, List.length_cons, Nat.mul_succ]
    omega

theorem cost_ge : ∀ (l : List Name), l.length ≤ cost l
  | [] => by simp [cost]
  | n :: l => by
    have h1 := cost_ge l
    have h2 : 1 ≤ (questions n).length := by
      unfold questions
      split <;> simp
    simp only [cost, List.map_cons, List.sum_cons, List.length_cons] at h1 ⊢
    omega

theorem fits_held {p : Phase} (h : p.Fits dbg) : held p ≤ 25000000 := by
  cases p with
  | reading buf => have : buf.length < 4096 := h; simp only [held]; omega
  | connecting name ty => have := (show Obtainable name from h).short; simp only [held]; omega
  | driving name ty b s =>
    obtain ⟨hn, ha, hs, acc, qs, hrun, hacc⟩ := h
    have inv := run_inv hrun
    have hm : b.made ≤ 10 := by
      simp only [ProofBuilder.awaiting, maxRequests, Bool.and_eq_true, decide_eq_true_eq] at ha
      omega
    have h1 := run_proof_le hrun hm hacc
    have h2 := hn.short
    have h3 : (b.requested.map (·.bytes.length)).sum ≤ 255 * b.requested.length := sum_le_of_le fun k hk => by
      obtain ⟨resp, _, recs, hc, hs⟩ := (inv.signers.2 k).mp hk
      exact (signer_obtainable hc hs).short
    have h4 := cost_ge b.requested
    have h5 := inv.made
    simp only [held]
    omega
  | finished a out => have : out.length ≤ 24903600 := h; simp only [held]; omega
  | panicked => exact Nat.zero_le _

end Dnssec
