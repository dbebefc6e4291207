import Verif.Proofs.Tasks
import Verif.Props.Server

/-! # C75: many clients at once -/

namespace Dnssec.Props
open Dnssec Spec

variable {dbg : Bool}

theorem endsWith_iff {t : Task} {r : Served} : EndsWith t r ↔ t.phase = r.toPhase := by cases r <;> rfl

theorem accepted_task {pre : List ServerEvent} (h : ServerEvent.acceptFails ∉ pre) (client : List SockEvent)
    (resolver : Option (Nat × List Bytes)) :
    ((runServer dbg pre).step dbg (.accept client resolver)).tasks[(accepted pre).length]? = some (Task.new client resolver) ∧
    ((runServer dbg pre).step dbg (.accept client resolver)).alive = true := by
  have ha := runServer_alive (dbg := dbg) h
  simp only [ServerState.step, ha, if_true]
  rw [← runServer_tasks_length (dbg := dbg) h]
  simp

/-- **C75.** As long as accepting connections does not fail: once the task of a client has been woken often enough (for each piece of data
from the client and the resolver, and for connecting), it has ended as if the client were alone and all data had arrived at once
(`serveTcp`; C74 says what that means), whatever the other clients and their resolvers do (including panics in their tasks), whatever
the order in which the tasks run, and in whatever pieces the data arrives.
Missing from the full property: accepting a connection fails (below). -/
theorem C75_served_as_if_alone_partial {pre post : List ServerEvent} {client : List SockEvent} {resolver : Option (Nat × List Bytes)}
    (h : ServerEvent.acceptFails ∉ pre ++ .accept client resolver :: post)
    (hw : waits client resolver ≤ post.count (.run (accepted pre).length)) :
    ∃ t, (runServer dbg (pre ++ .accept client resolver :: post)).tasks[(accepted pre).length]? = some t ∧
      EndsWith t (serveTcp dbg (wholeConnection resolver) client) := by
  simp only [List.mem_append, List.mem_cons, not_or] at h
  obtain ⟨h1, _, h3⟩ := h
  obtain ⟨ht, ha⟩ := accepted_task (dbg := dbg) h1 client resolver
  obtain ⟨n, hn, hc⟩ := foldl_task (dbg := dbg) _ post _ _ ht
  have hn' := hc ha h3
  obtain ⟨_, g2, g3⟩ := steps_good n (Task.new_good (dbg := dbg) client resolver)
  have hl : (Task.new client resolver).left = waits client resolver := rfl
  refine ⟨Task.steps dbg n (Task.new client resolver), ?_, ?_⟩
  · rw [runServer, List.foldl_append, List.foldl_cons]
    exact hn
  · rw [endsWith_iff, outcome_end (dbg := dbg) (by omega), g2, Task.new_outcome]

/-- **C75.** At every moment of every run, even after accepting has failed, the client of a task has been sent nothing, or exactly
what it would have been sent if it were alone. -/
theorem C75_no_other_outcome {pre post : List ServerEvent} {client : List SockEvent} {resolver : Option (Nat × List Bytes)}
    (h : ServerEvent.acceptFails ∉ pre) :
    ∃ t, (runServer dbg (pre ++ .accept client resolver :: post)).tasks[(accepted pre).length]? = some t ∧
      (Unfinished t ∨ EndsWith t (serveTcp dbg (wholeConnection resolver) client)) := by
  obtain ⟨ht, ha⟩ := accepted_task (dbg := dbg) h client resolver
  obtain ⟨n, hn, _⟩ := foldl_task (dbg := dbg) _ post _ _ ht
  obtain ⟨_, g2, _⟩ := steps_good n (Task.new_good (dbg := dbg) client resolver)
  refine ⟨Task.steps dbg n (Task.new client resolver), ?_, ?_⟩
  · rw [runServer, List.foldl_append, List.foldl_cons]
    exact hn
  · rw [Task.new_outcome] at g2
    rw [endsWith_iff, ← g2]
    generalize Task.steps dbg n (Task.new client resolver) = t
    obtain ⟨phase, c, r⟩ := t
    cases phase with
    | reading b => exact Or.inl ⟨by simp, by simp⟩
    | connecting n t => exact Or.inl ⟨by simp, by simp⟩
    | driving n t b s => exact Or.inl ⟨by simp, by simp⟩
    | finished a o => exact Or.inr rfl
    | panicked => exact Or.inr rfl

/-- **C75.** The server goes on accepting connections as long as accepting does not fail, even if tasks panic: every connection made has its
task. -/
theorem C75_keeps_accepting_partial {evs : List ServerEvent} (h : ServerEvent.acceptFails ∉ evs) :
    (runServer dbg evs).alive = true ∧ (runServer dbg evs).tasks.length = (accepted evs).length :=
  ⟨runServer_alive h, runServer_tasks_length h⟩

/-- Two clients with their steps interleaved. The first sends `c0` at once and its resolver sends `x` and `y`; the second sends `c1` and `c2`
with a read that would block in between, and its resolver is not reached. -/
def exEvents (c0 x y c1 c2 : Bytes) : List ServerEvent :=
  [.accept [.data c0] (some (2, [x, y])),
   .run 0, .accept [.data c1, .wouldBlock, .data c2] none, .run 1, .run 0, .run 0, .run 1, .run 0, .run 0, .run 1, .run 1, .run 1]

theorem exEvents_fails (c0 x y c1 c2 : Bytes) : ServerEvent.acceptFails ∉ exEvents c0 x y c1 c2 := by simp [exEvents]

theorem exServed (dbg : Bool) : serveTcp dbg none [.data exLine, .wouldBlock, .data crlf] = .done [(⟨ascii "a."⟩, 16)]
    (httpError (ascii "404 Not Found") (ascii "Failed to generate proof for given domain")) := by
  cases dbg <;> decide +kernel

/-- The hypotheses of the theorems are met by both clients. In this run the resolver of the first sends the response of
`C74_fails_nsec_window` in two pieces, and its task panics; the second client is answered. -/
example (dbg : Bool) : ∃ t0 t1, (runServer dbg (exEvents (exLine ++ crlf) ((frame panickingResponse).take 7)
      ((frame panickingResponse).drop 7) exLine crlf)).tasks = [t0, t1] ∧ t0.phase = .panicked ∧
    t1.phase = .finished [(⟨ascii "a."⟩, 16)] (httpError (ascii "404 Not Found") (ascii "Failed to generate proof for given domain")) := by
  have w0 : wholeConnection (some (2, [(frame panickingResponse).take 7, (frame panickingResponse).drop 7])) =
      some ⟨frame panickingResponse, 2, []⟩ := by
    simp only [wholeConnection, List.flatten_cons, List.flatten_nil, List.append_nil, List.take_append_drop]
  generalize (frame panickingResponse).take 7 = x at *
  generalize (frame panickingResponse).drop 7 = y at *
  have hp := C74_fails_nsec_window dbg
  rw [← w0] at hp
  have hs := exServed dbg
  generalize exLine ++ crlf = c0 at *
  generalize exLine = c1 at *
  generalize crlf = c2 at *
  have hf := exEvents_fails c0 x y c1 c2
  have hlen := (C75_keeps_accepting_partial (dbg := dbg) hf).2
  obtain ⟨t0, a0, e0⟩ := C75_served_as_if_alone_partial (dbg := dbg) (pre := []) (post := (exEvents c0 x y c1 c2).tail) (client := [.data c0])
    (resolver := some (2, [x, y])) hf (by simp [waits, exEvents, accepted])
  obtain ⟨t1, a1, e1⟩ := C75_served_as_if_alone_partial (dbg := dbg) (pre := (exEvents c0 x y c1 c2).take 2)
    (post := (exEvents c0 x y c1 c2).drop 3) (client := [.data c1, .wouldBlock, .data c2]) (resolver := none) hf
    (by simp [waits, exEvents, accepted])
  rw [hp] at e0
  have e1 : EndsWith t1 (serveTcp dbg none [.data c1, .wouldBlock, .data c2]) := e1
  rw [hs] at e1
  refine ⟨t0, t1, ?_, e0, e1⟩
  change (runServer dbg (exEvents c0 x y c1 c2)).tasks[0]? = _ at a0
  change (runServer dbg (exEvents c0 x y c1 c2)).tasks[1]? = _ at a1
  change _ = 2 at hlen
  match h : (runServer dbg (exEvents c0 x y c1 c2)).tasks with
  | [u, v] =>
    rw [h] at a0 a1
    simp only [List.getElem?_cons_zero, List.getElem?_cons_succ, Option.some.injEq] at a0 a1
    rw [a0, a1]
  | [] => rw [h] at hlen; simp at hlen
  | [_] => rw [h] at hlen; simp at hlen
  | _ :: _ :: _ :: _ => rw [h] at hlen; simp at hlen

/-- **C75 is false when accepting fails** (src/http.rs:49 panics, for instance when there are no more file descriptors, which clients that
connect and send nothing can bring about): the server ends. No connection is accepted any more, and a client whose request has been
received and would be answered is never answered. -/
theorem C75_fails_when_accept_fails (dbg : Bool) :
    ∃ (pre : List ServerEvent) (client : List SockEvent) (asked : List (Name × UInt16)) (out : Bytes),
      ServerEvent.acceptFails ∉ pre ∧ accepted pre = [(client, none)] ∧ serveTcp dbg none client = .done asked out ∧ out ≠ [] ∧
      ∀ post, ∃ t, (runServer dbg (pre ++ .acceptFails :: post)).tasks = [t] ∧ Unfinished t := by
  refine ⟨[.accept [.data (exLine ++ crlf)] none, .run 0], [.data (exLine ++ crlf)], [(⟨ascii "a."⟩, 16)],
    httpError (ascii "404 Not Found") (ascii "Failed to generate proof for given domain"), by decide +kernel, rfl,
    by cases dbg <;> decide +kernel, by decide +kernel, fun post => ?_⟩
  have e : runServer dbg [.accept [.data (exLine ++ crlf)] none, .run 0] = ⟨true, [⟨.connecting ⟨ascii "a."⟩ 16, [], none⟩]⟩ := by
    cases dbg <;> decide +kernel
  rw [runServer, List.foldl_append, List.foldl_cons, ← runServer, e, dead_stays post _ rfl]
  exact ⟨_, rfl, by simp, by simp⟩

end Dnssec.Props
