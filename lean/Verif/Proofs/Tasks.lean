import Verif.Spec.Tasks
import Verif.Proofs.Server

/-! # Lemmas about the tasks of the server -/

namespace Dnssec
open Spec

variable {dbg : Bool} {name : Name} {ty : UInt16}

/-! ### Streams with more to come -/

/-- The stream with more bytes behind those received. -/
def Stream.more (s : Stream) (x : Bytes) : Stream := { s with incoming := s.incoming ++ x }

theorem Stream.more_more (s : Stream) (x y : Bytes) : (s.more x).more y = s.more (x ++ y) := by simp [Stream.more]
theorem Stream.more_nil (s : Stream) : s.more [] = s := by simp [Stream.more]

theorem readResponse_more {s s' : Stream} {m : Bytes} (h : readResponse s = some (m, s')) (x : Bytes) :
    readResponse (s.more x) = some (m, s'.more x) := by
  obtain ⟨a, b, c⟩ := readResponse_some h
  have d := readResponse_writes h
  obtain ⟨i, w, o⟩ := s
  obtain ⟨i', w', o'⟩ := s'
  simp only at a c d
  subst a c d
  simp only [Stream.more, List.append_assoc]
  exact readResponse_frame m _ _ _ b

theorem sendQuery_more (s : Stream) (q x : Bytes) : sendQuery (s.more x) q = (sendQuery s q).map (·.more x) := by
  obtain ⟨i, w, o⟩ := s
  match w with
  | 0 => rfl
  | 1 => rfl
  | n + 2 => rfl

theorem sendAll_more (x : Bytes) : ∀ (qs : List Bytes) (s : Stream), sendAll (s.more x) qs = (sendAll s qs).map (·.more x)
  | [], s => rfl
  | q :: qs, s => by
    rw [sendAll, sendAll, sendQuery_more]
    cases sendQuery s q with
    | none => rfl
    | some s1 => exact sendAll_more x qs s1

theorem driveLoop_mono {r : Stream × Res Unit (Bytes × UInt32)} : ∀ (f : Nat) (b : ProofBuilder) (s : Stream),
    driveLoop dbg f b s = some r → driveLoop dbg (f + 1) b s = some r
  | f, b, s => by
    by_cases ha : b.awaiting = true
    · cases f with
      | zero => rw [driveLoop, if_pos ha]; simp
      | succ f =>
        rw [driveLoop, if_pos ha, driveLoop, if_pos ha]
        split
        · exact id
        · split
          · exact id
          · exact id
          · split
            · exact id
            · exact driveLoop_mono f _ _
    · intro h
      rw [driveLoop.eq_def] at h ⊢
      simp only at h ⊢
      rw [if_neg ha] at h ⊢
      exact h

/-- The result of the driver, for a builder in a run. -/
def driven (dbg : Bool) (b : ProofBuilder) (s : Stream) : Res Unit (Bytes × UInt32) :=
  match driveLoop dbg 10 b s with
  | some (_, r) => r
  | none => .err ()

theorem driven_eq {acc rej qs : List Bytes} {b : ProofBuilder} (h : Run dbg name ty acc rej qs b) (s : Stream) (f : Nat) (hf : f ≤ 10)
    (hl : 10 ≤ f + acc.length) : driveLoop dbg 10 b s = driveLoop dbg f b s := by
  have hr := driveLoop_returns f b s acc rej qs h hl
  obtain ⟨k, hk⟩ := Nat.exists_eq_add_of_le hf
  rw [hk]
  cases e : driveLoop dbg f b s with
  | none => exact absurd e hr
  | some r =>
    clear hk hf
    induction k with
    | zero => exact e
    | succ k ih => exact driveLoop_mono _ _ _ ih

/-- A builder in a run that the driver is waiting with. -/
structure Waiting (dbg : Bool) (name : Name) (ty : UInt16) (b : ProofBuilder) (s : Stream) : Prop where
  run : ∃ acc qs, Run dbg name ty acc [] qs b
  awaiting : b.awaiting = true
  nothing : readResponse s = none

/-- `pump` does a part of what the driver does. -/
theorem pump_driven (x : Bytes) : ∀ (f : Nat) (b : ProofBuilder) (s : Stream) (acc qs : List Bytes), Run dbg name ty acc [] qs b →
    f ≤ 10 → 10 ≤ f + acc.length →
    (∀ b' s', pump dbg f b s = ((b', s'), none) → Waiting dbg name ty b' s' ∧ driven dbg b (s.more x) = driven dbg b' (s'.more x)) ∧
    (∀ p r, pump dbg f b s = (p, some r) → driven dbg b (s.more x) = r)
  | f, b, s, acc, qs, hrun, hf, hl => by
    have hpend := (run_inv hrun).pending
    have hd := driven_eq hrun (s.more x) f hf hl
    by_cases ha : b.awaiting = true
    · have ha' := ha
      simp only [ProofBuilder.awaiting, maxRequests, Bool.and_eq_true, decide_eq_true_eq] at ha'
      cases f with
      | zero => omega
      | succ f =>
        rw [pump, if_pos ha]
        rw [driveLoop.eq_def dbg (f + 1)] at hd
        simp only at hd
        rw [if_pos ha] at hd
        cases hr : readResponse s with
        | none =>
          refine ⟨fun b' s' e => ?_, fun p r e => by simp at e⟩
          simp only [Prod.mk.injEq, and_true] at e
          obtain ⟨rfl, rfl⟩ := e
          exact ⟨⟨⟨acc, qs, hrun⟩, ha, hr⟩, rfl⟩
        | some y =>
          obtain ⟨resp, s1⟩ := y
          rw [readResponse_more hr x] at hd
          simp only at hd ⊢
          cases hp : b.processResponse dbg resp with
          | mk b1 res =>
            rw [hp] at hd
            cases res with
            | err e =>
              refine ⟨fun b' s' e => by simp at e, fun p r e => ?_⟩
              simp only [Prod.mk.injEq, Option.some.injEq] at e
              rw [driven, hd, ← e.2]
            | panic =>
              refine ⟨fun b' s' e => by simp at e, fun p r e => ?_⟩
              simp only [Prod.mk.injEq, Option.some.injEq] at e
              rw [driven, hd, ← e.2]
            | ok more =>
              simp only [sendAll_more] at hd ⊢
              have hrun' := Run.accept hrun hp
              cases hs : sendAll s1 more with
              | none =>
                rw [hs] at hd
                refine ⟨fun b' s' e => by simp at e, fun p r e => ?_⟩
                simp only [Prod.mk.injEq, Option.some.injEq] at e
                rw [driven, hd, ← e.2]
                rfl
              | some s2 =>
                rw [hs] at hd
                simp only [Option.map_some] at hd ⊢
                have := pump_driven x f b1 s2 _ _ hrun' (by omega) (by simp; omega)
                have h2 := driven_eq hrun' (s2.more x) f (by omega) (by simp; omega)
                have : driven dbg b (s.more x) = driven dbg b1 (s2.more x) := by rw [driven, driven, hd, h2]
                rw [this]
                assumption
    · have e1 : pump dbg f b s = match b.finish with
          | some r => ((b, s), some (.ok r))
          | none => ((b, s), some (.err ())) := by cases f <;> (rw [pump, if_neg ha]; cases b.finish <;> rfl)
      rw [e1]
      have e2 : driveLoop dbg f b (s.more x) = match b.finish with
          | some r => some (s.more x, .ok r)
          | none => some (s.more x, .err ()) := by cases f <;> (rw [driveLoop, if_neg ha]; cases b.finish <;> rfl)
      rw [e2] at hd
      cases hfin : b.finish with
      | none =>
        rw [hfin] at hd
        refine ⟨fun b' s' e => by simp at e, fun p r e => ?_⟩
        simp only [Prod.mk.injEq, Option.some.injEq] at e
        rw [driven, hd, ← e.2]
      | some v =>
        rw [hfin] at hd
        refine ⟨fun b' s' e => by simp at e, fun p r e => ?_⟩
        simp only [Prod.mk.injEq, Option.some.injEq] at e
        rw [driven, hd, ← e.2]

/-! ### One task -/

/-- The bytes the resolver still sends. -/
def Task.rest (t : Task) : Bytes :=
  match t.resolver with
  | none => []
  | some (_, chunks) => chunks.flatten

/-- What a task comes to, from the state it is in. -/
def Task.outcome (dbg : Bool) (t : Task) : Phase :=
  match t.phase with
  | .reading buf =>
    match readRequest buf t.client with
    | .closed => .finished [] []
    | .tooLarge => (answer (fun _ _ => none) (.reject (ascii "400 Bad Request") (ascii "Request Too Large"))).toPhase
    | .request buf =>
      match decideBuf dbg buf with
      | none => .panicked
      | some (.lookup name ty) => lookupDone name ty (lookupTcp dbg (wholeConnection t.resolver) name ty)
      | some d => (answer (fun _ _ => none) d).toPhase
  | .connecting name ty => lookupDone name ty (lookupTcp dbg (wholeConnection t.resolver) name ty)
  | .driving name ty b s => lookupDone name ty (driven dbg b (s.more t.rest))
  | p => p

/-- What holds of a task between two steps. -/
def Task.Good (dbg : Bool) (t : Task) : Prop :=
  match t.phase with
  | .reading buf => buf.length < httpBufSize
  | .driving name ty b s => Waiting dbg name ty b s
  | _ => True

theorem Task.new_good (client : List SockEvent) (resolver : Option (Nat × List Bytes)) : (Task.new client resolver).Good dbg := by
  simp [Task.Good, Task.new, httpBufSize]

theorem Task.new_outcome (client : List SockEvent) (resolver : Option (Nat × List Bytes)) :
    (Task.new client resolver).outcome dbg = (serveTcp dbg (wholeConnection resolver) client).toPhase := by
  unfold Task.outcome Task.new serveTcp
  simp only
  cases readRequest [] client with
  | closed => rfl
  | tooLarge => rfl
  | request buf =>
    simp only
    cases decideBuf dbg buf with
    | none => rfl
    | some d =>
      cases d with
      | reject s m => rfl
      | lookup n t =>
        simp only [lookupDone]
        cases lookupTcp dbg (wholeConnection resolver) n t <;> rfl

theorem lookupDone_end (r : Res Unit (Bytes × UInt32)) : (∃ asked out, lookupDone name ty r = .finished asked out) ∨ lookupDone name ty r = .panicked := by
  cases r with
  | panic => exact Or.inr rfl
  | ok v => exact Or.inl ⟨_, _, rfl⟩
  | err e => exact Or.inl ⟨_, _, rfl⟩

theorem lookupDone_good (t : Task) (r : Res Unit (Bytes × UInt32)) :
    Task.Good dbg { t with phase := lookupDone name ty r } ∧ Task.outcome dbg { t with phase := lookupDone name ty r } = lookupDone name ty r := by
  cases r with
  | panic => exact ⟨trivial, rfl⟩
  | ok v => exact ⟨trivial, rfl⟩
  | err e => exact ⟨trivial, rfl⟩

theorem pumped_good {acc qs : List Bytes} {b : ProofBuilder} (hrun : Run dbg name ty acc [] qs b) (s : Stream) (t : Task) :
    Task.Good dbg { t with phase := pumped dbg name ty b s } ∧
      Task.outcome dbg { t with phase := pumped dbg name ty b s } = lookupDone name ty (driven dbg b (s.more t.rest)) := by
  obtain ⟨h1, h2⟩ := pump_driven t.rest 10 b s acc qs hrun (by omega) (by omega)
  unfold pumped
  cases hp : pump dbg 10 b s with
  | mk bs res =>
    obtain ⟨b', s'⟩ := bs
    cases res with
    | none =>
      obtain ⟨hw, hd⟩ := h1 _ _ hp
      refine ⟨hw, ?_⟩
      rw [hd]
      rfl
    | some r =>
      rw [h2 _ _ hp]
      exact lookupDone_good t r

theorem step_good {t : Task} (h : t.Good dbg) : (t.step dbg).Good dbg ∧ (t.step dbg).outcome dbg = t.outcome dbg := by
  obtain ⟨phase, client, resolver⟩ := t
  cases phase with
  | reading buf =>
    simp only [Task.Good] at h
    have hne : buf.length ≠ httpBufSize := by omega
    cases client with
    | nil =>
      refine ⟨trivial, ?_⟩
      simp only [Task.outcome, Task.step]
      rw [readRequest, if_neg hne]
    | cons e es =>
      simp only [Task.step]
      cases e with
      | error =>
        refine ⟨trivial, ?_⟩
        simp only [Task.outcome, clientEvent]
        rw [readRequest, if_neg hne]
      | wouldBlock =>
        refine ⟨h, ?_⟩
        simp only [Task.outcome, clientEvent]
        rw [readRequest.eq_def buf (.wouldBlock :: es), if_neg hne]
      | data chunk =>
        simp only [clientEvent]
        have e1 : readRequest buf (.data chunk :: es) = 
          if (chunk.take (httpBufSize - buf.length)).length = 0 then .closed
          else if hasCRLF (buf ++ chunk.take (httpBufSize - buf.length)) then .request (buf ++ chunk.take (httpBufSize - buf.length))
          else readRequest (buf ++ chunk.take (httpBufSize - buf.length)) es := by rw [readRequest, if_neg hne]
        have hlen : (buf ++ chunk.take (httpBufSize - buf.length)).length ≤ httpBufSize := by
          rw [List.length_append, List.length_take]; omega
        have e2 : Task.outcome dbg ⟨.reading buf, .data chunk :: es, resolver⟩ =
            match readRequest buf (.data chunk :: es) with
            | .closed => .finished [] []
            | .tooLarge => (answer (fun _ _ => none) (.reject (ascii "400 Bad Request") (ascii "Request Too Large"))).toPhase
            | .request buf =>
              match decideBuf dbg buf with
              | none => .panicked
              | some (.lookup name ty) => lookupDone name ty (lookupTcp dbg (wholeConnection resolver) name ty)
              | some d => (answer (fun _ _ => none) d).toPhase := rfl
        rw [e2, e1]
        generalize chunk.take (httpBufSize - buf.length) = c at *
        by_cases h0 : c.length = 0
        · rw [if_pos h0, if_pos h0]; exact ⟨trivial, rfl⟩
        · rw [if_neg h0, if_neg h0]
          by_cases hc : hasCRLF (buf ++ c) = true
          · rw [if_pos hc, if_pos hc]
            simp only [requestRead]
            cases decideBuf dbg (buf ++ c) with
            | none => exact ⟨trivial, rfl⟩
            | some d =>
              cases d with
              | reject s m => exact ⟨trivial, rfl⟩
              | lookup n t => exact ⟨trivial, rfl⟩
          · rw [if_neg hc, if_neg hc]
            by_cases hfull : (buf ++ c).length = httpBufSize
            · rw [if_pos hfull]
              have : readRequest (buf ++ c) es = .tooLarge := by
                cases es with
                | nil => rw [readRequest, if_pos hfull]
                | cons e es => rw [readRequest.eq_def, if_pos hfull]
              rw [this]
              exact ⟨trivial, rfl⟩
            · rw [if_neg hfull]
              refine ⟨?_, rfl⟩
              simp only [Task.Good]
              omega
  | connecting name ty =>
    cases resolver with
    | none => exact lookupDone_good (name := name) (ty := ty) ⟨.connecting name ty, client, none⟩ (.err ())
    | some wc =>
      obtain ⟨writes, chunks⟩ := wc
      simp only [Task.step]
      have hq : lookupTcp dbg (wholeConnection (some (writes, chunks))) name ty =
          match sendQuery ⟨[], writes, []⟩ (ProofBuilder.new name ty).2 with
          | none => .err ()
          | some s => driven dbg (ProofBuilder.new name ty).1 (s.more chunks.flatten) := by
        have := sendQuery_more ⟨[], writes, []⟩ (ProofBuilder.new name ty).2 chunks.flatten
        simp only [Stream.more, List.nil_append] at this
        simp only [lookupTcp, wholeConnection, buildProof]
        rw [this]
        cases sendQuery ⟨[], writes, []⟩ (ProofBuilder.new name ty).2 <;> rfl
      have e2 : Task.outcome dbg ⟨.connecting name ty, client, some (writes, chunks)⟩ =
        lookupDone name ty (lookupTcp dbg (wholeConnection (some (writes, chunks))) name ty) := rfl
      rw [e2, hq]
      cases sendQuery ⟨[], writes, []⟩ (ProofBuilder.new name ty).2 with
      | none => exact lookupDone_good (name := name) (ty := ty) ⟨.connecting name ty, client, some (writes, chunks)⟩ (.err ())
      | some s => exact pumped_good Run.new s ⟨.connecting name ty, client, some (writes, chunks)⟩
  | driving name ty b s =>
    obtain ⟨⟨acc, qs, hrun⟩, ha, hn⟩ := (h : Waiting dbg name ty b s)
    have hend : driven dbg b s = .err () := by
      have : driveLoop dbg 10 b s = some (s, .err ()) := by rw [driveLoop, if_pos ha, hn]
      rw [driven, this]
    cases resolver with
    | none =>
      have := lookupDone_good (dbg := dbg) (name := name) (ty := ty) ⟨.driving name ty b s, client, none⟩ (.err ())
      refine ⟨this.1, this.2.trans ?_⟩
      simp only [Task.outcome, Task.rest, Stream.more_nil, hend]
    | some wc =>
      obtain ⟨writes, chunks⟩ := wc
      cases chunks with
      | nil =>
        have := lookupDone_good (dbg := dbg) (name := name) (ty := ty) ⟨.driving name ty b s, client, some (writes, [])⟩ (.err ())
        refine ⟨this.1, this.2.trans ?_⟩
        simp only [Task.outcome, Task.rest, List.flatten_nil, Stream.more_nil, hend]
      | cons c cs =>
        have := pumped_good hrun (s.more c) ⟨.driving name ty b s, client, some (writes, cs)⟩
        refine ⟨this.1, this.2.trans ?_⟩
        simp only [Task.outcome, Task.rest, List.flatten_cons, Stream.more_more]
  | finished a o => exact ⟨trivial, rfl⟩
  | panicked => exact ⟨trivial, rfl⟩

/-- How many more steps a task can wait. -/
def Task.left (t : Task) : Nat :=
  match t.phase with
  | .reading _ => waits t.client t.resolver
  | .connecting _ _ => (match t.resolver with | none => 0 | some (_, chunks) => chunks.length) + 2
  | .driving _ _ _ _ => (match t.resolver with | none => 0 | some (_, chunks) => chunks.length) + 1
  | _ => 0

theorem left_lookupDone (c : List SockEvent) (x : Option (Nat × List Bytes)) (r : Res Unit (Bytes × UInt32)) :
    Task.left ⟨lookupDone name ty r, c, x⟩ = 0 := by
  cases r <;> rfl

theorem left_pumped (c : List SockEvent) (w : Nat) (chunks : List Bytes) (b : ProofBuilder) (s : Stream) :
    Task.left ⟨pumped dbg name ty b s, c, some (w, chunks)⟩ ≤ chunks.length + 1 := by
  unfold pumped
  split
  · exact Nat.le_refl _
  · rw [left_lookupDone]; omega

theorem step_left (t : Task) : (t.step dbg).left ≤ t.left - 1 := by
  obtain ⟨phase, client, resolver⟩ := t
  cases phase with
  | reading buf =>
    cases client with
    | nil => simp [Task.step, Task.left]
    | cons e es =>
      have key : ∀ p : Phase, (∃ b, p = .reading b) ∨ (∃ n t, p = .connecting n t) ∨ (∃ a o, p = .finished a o) ∨ p = .panicked →
          Task.left ⟨p, es, resolver⟩ ≤ waits (e :: es) resolver - 1 := by
        intro p hp
        rcases hp with ⟨b, rfl⟩ | ⟨n, t, rfl⟩ | ⟨a, o, rfl⟩ | rfl <;> cases resolver <;> simp [Task.left, waits] <;> omega
      apply key
      cases e with
      | error => exact Or.inr (Or.inr (Or.inl ⟨_, _, rfl⟩))
      | wouldBlock => exact Or.inl ⟨_, rfl⟩
      | data chunk =>
        simp only [clientEvent]
        split
        · exact Or.inr (Or.inr (Or.inl ⟨_, _, rfl⟩))
        · split
          · unfold requestRead
            split
            · exact Or.inr (Or.inr (Or.inr rfl))
            · exact Or.inr (Or.inl ⟨_, _, rfl⟩)
            · rename_i d _ _
              cases d with
              | reject s m => exact Or.inr (Or.inr (Or.inl ⟨_, _, rfl⟩))
              | lookup n t => exact Or.inr (Or.inr (Or.inl ⟨_, _, rfl⟩))
          · split
            · exact Or.inr (Or.inr (Or.inl ⟨_, _, rfl⟩))
            · exact Or.inl ⟨_, rfl⟩
  | connecting name ty =>
    cases resolver with
    | none => simp only [Task.step]; rw [left_lookupDone]; omega
    | some wc =>
      obtain ⟨w, chunks⟩ := wc
      simp only [Task.step]
      split
      · rw [left_lookupDone]; omega
      · exact left_pumped _ _ _ _ _
  | driving name ty b s =>
    match resolver with
    | none => simp only [Task.step]; rw [left_lookupDone]; omega
    | some (w, []) => simp only [Task.step]; rw [left_lookupDone]; omega
    | some (w, c :: cs) =>
      simp only [Task.step]
      exact left_pumped _ _ _ _ _
  | finished a o => simp [Task.step, Task.left]
  | panicked => simp [Task.step, Task.left]

/-- The task after some steps. -/
def Task.steps (dbg : Bool) : Nat → Task → Task
  | 0, t => t
  | n + 1, t => Task.steps dbg n (t.step dbg)

theorem steps_succ' (n : Nat) : ∀ t : Task, Task.steps dbg (n + 1) t = (Task.steps dbg n t).step dbg := by
  induction n with
  | zero => intro t; rfl
  | succ n ih => intro t; rw [Task.steps, ih (t.step dbg)]; rfl

theorem steps_good (n : Nat) : ∀ {t : Task}, t.Good dbg → (Task.steps dbg n t).Good dbg ∧ (Task.steps dbg n t).outcome dbg = t.outcome dbg ∧
    (Task.steps dbg n t).left ≤ t.left - n := by
  induction n with
  | zero => intro t h; exact ⟨h, rfl, Nat.le_refl _⟩
  | succ n ih =>
    intro t h
    obtain ⟨a, b⟩ := step_good h
    obtain ⟨c, d, e⟩ := ih a
    have := step_left (dbg := dbg) t
    exact ⟨c, d.trans b, by rw [Task.steps]; omega⟩

theorem outcome_end {t : Task} (h : t.left = 0) : t.phase = t.outcome dbg := by
  obtain ⟨phase, client, resolver⟩ := t
  cases phase with
  | reading b => cases resolver <;> simp [Task.left, waits] at h
  | connecting n t => simp [Task.left] at h
  | driving n t b s => simp [Task.left] at h
  | finished a o => rfl
  | panicked => rfl

/-! ### The server -/

/-- The state of the `i`th task, after the events `evs`, from the state of the server. -/
theorem foldl_task (i : Nat) : ∀ (evs : List ServerEvent) (s : ServerState) (t : Task), s.tasks[i]? = some t →
    ∃ n, (evs.foldl (ServerState.step dbg) s).tasks[i]? = some (Task.steps dbg n t) ∧
      (s.alive = true → ServerEvent.acceptFails ∉ evs → n = evs.count (.run i))
  | [], s, t, h => ⟨0, h, fun _ _ => rfl⟩
  | e :: evs, s, t, h => by
    cases e with
    | accept c r =>
      have h1 : (s.step dbg (.accept c r)).tasks[i]? = some t := by
        unfold ServerState.step
        simp only
        split
        · simp only
          rw [List.getElem?_append_left (by
            have := List.getElem?_eq_some_iff.mp h
            exact this.1)]
          exact h
        · exact h
      obtain ⟨n, a, b⟩ := foldl_task i evs _ t h1
      refine ⟨n, a, fun ha hn => ?_⟩
      rw [b (by simp [ServerState.step, ha]) (fun hh => hn (by simp [hh]))]
      simp
    | acceptFails =>
      obtain ⟨n, a, _⟩ := foldl_task i evs (s.step dbg .acceptFails) t h
      exact ⟨n, a, fun _ hn => absurd (by simp) hn⟩
    | run j =>
      by_cases ha : s.alive = true
      · have e1 : s.step dbg (.run j) = { s with tasks := s.tasks.modify j (Task.step dbg) } := by simp [ServerState.step, ha]
        by_cases hij : j = i
        · subst hij
          have h1 : (s.step dbg (.run j)).tasks[j]? = some (t.step dbg) := by
            rw [e1]; simp [h]
          obtain ⟨n, a, b⟩ := foldl_task j evs _ _ h1
          refine ⟨n + 1, a, fun _ hn => ?_⟩
          rw [b (by rw [e1]; exact ha) (fun hh => hn (by simp [hh]))]
          simp
        · have h1 : (s.step dbg (.run j)).tasks[i]? = some t := by
            rw [e1]; simp [h, hij]
          obtain ⟨n, a, b⟩ := foldl_task i evs _ _ h1
          refine ⟨n, a, fun _ hn => ?_⟩
          rw [b (by rw [e1]; exact ha) (fun hh => hn (by simp [hh]))]
          rw [List.count_cons_of_ne (by simpa using hij)]
      · have e1 : s.step dbg (.run j) = s := by simp [ServerState.step, ha]
        obtain ⟨n, a, _⟩ := foldl_task i evs (s.step dbg (.run j)) t (by rw [e1]; exact h)
        exact ⟨n, a, fun hh => absurd hh ha⟩

theorem runServer_alive {evs : List ServerEvent} (h : ServerEvent.acceptFails ∉ evs) : (runServer dbg evs).alive = true := by
  have key : ∀ (evs : List ServerEvent) (s : ServerState), s.alive = true → ServerEvent.acceptFails ∉ evs →
      (evs.foldl (ServerState.step dbg) s).alive = true := by
    intro evs
    induction evs with
    | nil => intro s h _; exact h
    | cons e evs ih =>
      intro s h hn
      refine ih _ ?_ (fun hh => hn (by simp [hh]))
      cases e with
      | accept c r => simp [ServerState.step, h]
      | acceptFails => exact absurd (by simp) hn
      | run j => simp [ServerState.step, h]
  exact key evs _ rfl h

theorem runServer_tasks_length {evs : List ServerEvent} (h : ServerEvent.acceptFails ∉ evs) :
    (runServer dbg evs).tasks.length = (accepted evs).length := by
  have key : ∀ (evs : List ServerEvent) (s : ServerState), s.alive = true → ServerEvent.acceptFails ∉ evs →
      (evs.foldl (ServerState.step dbg) s).tasks.length = s.tasks.length + (accepted evs).length := by
    intro evs
    induction evs with
    | nil => intro s h _; rfl
    | cons e evs ih =>
      intro s h hn
      have hn' : ServerEvent.acceptFails ∉ evs := fun hh => hn (by simp [hh])
      cases e with
      | accept c r =>
        rw [List.foldl_cons, ih _ (by simp [ServerState.step, h]) hn']
        simp [ServerState.step, h, accepted]
        omega
      | acceptFails => exact absurd (by simp) hn
      | run j =>
        rw [List.foldl_cons, ih _ (by simp [ServerState.step, h]) hn']
        simp [ServerState.step, h, accepted]
  have := key evs ⟨true, []⟩ rfl h
  simpa [runServer] using this

theorem dead_stays (evs : List ServerEvent) : ∀ s : ServerState, s.alive = false → evs.foldl (ServerState.step dbg) s = s := by
  induction evs with
  | nil => intro s _; rfl
  | cons e evs ih =>
    intro s h
    have : s.step dbg e = s := by
      obtain ⟨a, ts⟩ := s
      simp only at h
      subst h
      cases e <;> simp [ServerState.step]
    rw [List.foldl_cons, this, ih s h]

end Dnssec
