import Verif.Proofs.Conn
import Verif.Props.Tasks

/-! # C122: clients that read slowly -/

set_option autoImplicit false

namespace Dnssec.Props

open Dnssec Spec

variable {dbg : Bool}

theorem accepted_conn {pre : List ConnEvent} (h : ConnEvent.acceptFails ∉ pre) (client : List SockEvent)
    (resolver : Option (Nat × List Bytes)) (writes : List WriteEvent) :
    ((runConns dbg pre).step dbg (.accept client resolver writes)).conns[connections pre]? = some (.working (Task.new client resolver) writes) ∧
    ((runConns dbg pre).step dbg (.accept client resolver writes)).alive = true := by
  obtain ⟨ha, hl⟩ := runConns_alive (dbg := dbg) h
  simp only [ConnServer.step, ha, if_true]
  rw [← hl]
  simp

theorem new_unfinished (client : List SockEvent) (resolver : Option (Nat × List Bytes)) : Unfinished (Task.new client resolver) :=
  ⟨by simp [Task.new], by simp [Task.new]⟩

/-- **C122.** As long as accepting connections does not fail: once the task of a client has been woken often enough, the connection is closed, and the client has received
what the writes to it took of the response it would get alone (`writeAll`; all of it unless a write fails, C88), or its task has panicked as it would alone. This
is so whatever the other clients do, and however long they take to read what is written to them, or if they never do. -/
theorem C122_delivered {pre post : List ConnEvent} {client : List SockEvent} {resolver : Option (Nat × List Bytes)} {writes : List WriteEvent}
    (h : ConnEvent.acceptFails ∉ pre ++ .accept client resolver writes :: post)
    (hw : connWaits dbg client resolver ≤ post.count (.run (connections pre))) :
    (runConns dbg (pre ++ .accept client resolver writes :: post)).conns[connections pre]? =
      some (match serveTcp dbg (wholeConnection resolver) client with
        | .done _ out => .closed (writeAll out writes).1
        | .panicked => .panicked) := by
  simp only [List.mem_append, List.mem_cons, not_or] at h
  obtain ⟨h1, _, h3⟩ := h
  obtain ⟨ht, ha⟩ := accepted_conn (dbg := dbg) h1 client resolver writes
  obtain ⟨n, hn, hc⟩ := foldl_conn (dbg := dbg) _ post _ _ ht
  have hn' := hc ha h3
  have hl : (Task.new client resolver).left = waits client resolver := rfl
  obtain ⟨g1, g2⟩ := conn_working writes n (Task.new_good (dbg := dbg) client resolver) (new_unfinished client resolver)
  rw [Task.new_outcome] at g1 g2
  rw [runConns, List.foldl_append, List.foldl_cons, ← runConns, hn]
  congr 1
  unfold connWaits at hw
  cases hs : serveTcp dbg (wholeConnection resolver) client with
  | done asked out =>
    rw [hs] at hw g1
    simp only at hw
    exact (g1 asked out rfl).2 (by omega)
  | panicked =>
    rw [hs] at hw g2
    simp only at hw
    exact (g2 rfl).2 (by omega)

/-- **C122.** If moreover no write to this client fails, it has received the whole response. -/
theorem C122_complete {pre post : List ConnEvent} {client : List SockEvent} {resolver : Option (Nat × List Bytes)} {writes : List WriteEvent}
    {asked : List (Name × UInt16)} {out : Bytes} (h : ConnEvent.acceptFails ∉ pre ++ .accept client resolver writes :: post)
    (hw : connWaits dbg client resolver ≤ post.count (.run (connections pre)))
    (hs : serveTcp dbg (wholeConnection resolver) client = .done asked out) (hl : Live out.length writes) :
    (runConns dbg (pre ++ .accept client resolver writes :: post)).conns[connections pre]? = some (.closed out) := by
  rw [C122_delivered h hw, hs]
  simp only
  rw [writeAll_ok _ _ (writeAll_live writes out 0 hl).1]

/-- **C122.** At every moment of every run, even after accepting has failed, a client has received an initial part of the response it would get alone, and nothing
if its task would panic. -/
theorem C122_initial_part {pre post : List ConnEvent} {client : List SockEvent} {resolver : Option (Nat × List Bytes)} {writes : List WriteEvent}
    (h : ConnEvent.acceptFails ∉ pre) :
    ∃ c, (runConns dbg (pre ++ .accept client resolver writes :: post)).conns[connections pre]? = some c ∧
      match serveTcp dbg (wholeConnection resolver) client with
      | .done _ out => got c <+: out
      | .panicked => got c = [] := by
  obtain ⟨ht, ha⟩ := accepted_conn (dbg := dbg) h client resolver writes
  obtain ⟨n, hn, _⟩ := foldl_conn (dbg := dbg) _ post _ _ ht
  obtain ⟨g1, g2⟩ := conn_working writes n (Task.new_good (dbg := dbg) client resolver) (new_unfinished client resolver)
  rw [Task.new_outcome] at g1 g2
  refine ⟨_, by rw [runConns, List.foldl_append, List.foldl_cons, ← runConns]; exact hn, ?_⟩
  cases hs : serveTcp dbg (wholeConnection resolver) client with
  | done asked out =>
    rw [hs] at g1
    obtain ⟨k, hk⟩ := (g1 asked out rfl).1
    simp only [hk]
    exact List.take_prefix k out
  | panicked =>
    rw [hs] at g2
    exact (g2 rfl).1

/-- **C122.** In every run that never ends, in which accepting does not fail: a client that is accepted, and for whose task what it waits for happens again and again, is
served at some time, and remains so. Nothing is assumed about the other clients: those tasks may be woken or not. -/
theorem C122_eventually {σ : Nat → ConnEvent} {k : Nat} {client : List SockEvent} {resolver : Option (Nat × List Bytes)} {writes : List WriteEvent}
    (hn : ∀ m, σ m ≠ .acceptFails) (hk : σ k = .accept client resolver writes) (hf : Fair σ (connections (firstEvents σ k))) :
    ∃ M, ∀ m, M ≤ m → (runConns dbg (firstEvents σ m)).conns[connections (firstEvents σ k)]? =
      some (match serveTcp dbg (wholeConnection resolver) client with
        | .done _ out => .closed (writeAll out writes).1
        | .panicked => .panicked) := by
  obtain ⟨d, hd⟩ := fair_count hf (k + 1) (connWaits dbg client resolver)
  refine ⟨k + 1 + d, fun m hm => ?_⟩
  have hsplit := firstEvents_split σ (show k < m by omega)
  rw [hk] at hsplit
  have hn' : ConnEvent.acceptFails ∉ firstEvents σ m := by
    intro h
    obtain ⟨j, _, e⟩ := List.mem_map.1 h
    exact hn j e
  rw [hsplit] at hn' ⊢
  exact C122_delivered hn' (hd _ (by omega))

/-- A run that never ends: a client is accepted and woken, then silent clients come for ever, the first one being woken after each. -/
example : let σ : Nat → ConnEvent := fun m => if m = 0 then .accept [.data (ascii "GET / HTTP/1.1\r\n")] none [.takes 3] else if m % 2 = 1 then .run 0 else .accept [] none []
    (∀ m, σ m ≠ .acceptFails) ∧ Fair σ (connections (firstEvents σ 0)) := by
  refine ⟨fun m => ?_, fun n => ⟨2 * n + 1, by omega, ?_⟩⟩
  · simp only
    split
    · exact ConnEvent.noConfusion
    · split <;> exact ConnEvent.noConfusion
  · simp only [show 2 * n + 1 ≠ 0 by omega, show (2 * n + 1) % 2 = 1 by omega, if_false, if_true]
    rfl

/-- A request that is answered at once: the path is not known. -/
def badRequest : Bytes := ascii "GET / HTTP/1.1\r\n"

/-- The first client sends a request and does not read the answer beyond the first three octets; the second, which came later, takes its answer in large pieces. -/
def slowReader : List ConnEvent :=
  [.accept [.data badRequest] none [.takes 3, .takes 1], .run 0, .run 0, .accept [.data badRequest] none (List.replicate 200 (.takes 50))] ++
    List.replicate 200 (.run 1)

/-- The hypotheses of the theorems are met by the second client, while the task of the first waits for ever: it is never woken again. -/
example (dbg : Bool) : ConnEvent.acceptFails ∉ slowReader ∧ connWaits dbg [.data badRequest] none ≤ 200 ∧
    serveTcp dbg none [.data badRequest] = .done [] (httpError (ascii "404 Not Found") (ascii "Not Found")) ∧
    Live (httpError (ascii "404 Not Found") (ascii "Not Found")).length (List.replicate 200 (.takes 50)) ∧
    (runConns dbg slowReader).conns.map got = [ascii "HTT", httpError (ascii "404 Not Found") (ascii "Not Found")] := by
  refine ⟨by decide +kernel, by cases dbg <;> decide +kernel, by cases dbg <;> decide +kernel, ⟨fun e he => ?_, by decide +kernel⟩,
    by cases dbg <;> decide +kernel⟩
  rw [List.eq_of_mem_replicate he]
  simp [TakesNothing]

end Dnssec.Props
