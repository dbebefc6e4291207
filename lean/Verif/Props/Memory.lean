import Verif.Proofs.Memory
import Verif.Proofs.Example
import Verif.Props.Server

/-! # C112: what the HTTP server keeps for its clients -/

namespace Dnssec.Props

open Dnssec Spec

variable {dbg : Bool}

/-- **C112, for each client:** at every moment of every run of the server, whatever the clients, the resolver and the executor do, what is kept for a client is at most
25 million octets. Missing from the full property: a bound for all clients together, for which it is false. -/
theorem C112_per_client_partial (evs : List ServerEvent) : ∀ t ∈ (runServer dbg evs).tasks, held t.phase ≤ 25000000 :=
  fun t ht => fits_held (runServer_fits evs t ht)

/-- **C112, while a request is read:** fewer than 4096 octets are kept, however much the client sends. -/
theorem C112_request_partial (evs : List ServerEvent) {t : Task} (ht : t ∈ (runServer dbg evs).tasks) {buf : Bytes} (h : t.phase = .reading buf) :
    held t.phase < 4096 := by
  have := runServer_fits (dbg := dbg) evs t ht
  rw [h] at this ⊢
  exact this

/-- **C112, all clients:** what is kept for all of them together is at most 25 million octets for each connection accepted. -/
theorem C112_total_partial (evs : List ServerEvent) :
    ((runServer dbg evs).tasks.map (fun t => held t.phase)).sum ≤ 25000000 * (runServer dbg evs).tasks.length := by
  have key : ∀ l : List Task, (∀ t ∈ l, held t.phase ≤ 25000000) → (l.map (fun t => held t.phase)).sum ≤ 25000000 * l.length := by
    intro l
    induction l with
    | nil => simp
    | cons a l ih =>
      intro h
      have h1 := h a (by simp)
      have h2 := ih fun t ht => h t (by simp [ht])
      simp only [List.map_cons, List.sum_cons, List.length_cons]
      omega
  exact key _ (C112_per_client_partial evs)

/-- A client that sends 1000 octets, none of them the end of a line, and then neither sends more nor closes the connection. -/
def idleClient : List SockEvent := [.data (List.replicate 1000 0)]

/-- `n` such clients, each having been served as far as possible. -/
def idleClients : Nat → List ServerEvent
  | 0 => []
  | n + 1 => idleClients n ++ [.accept idleClient none, .run n]

theorem idle_step : (Task.new idleClient none).step dbg = ⟨.reading (List.replicate 1000 0), [], none⟩ := by
  cases dbg <;> decide +kernel

theorem idleClients_tasks (n : Nat) :
    runServer dbg (idleClients n) = ⟨true, List.replicate n ⟨.reading (List.replicate 1000 0), [], none⟩⟩ := by
  induction n with
  | zero => rfl
  | succ n ih =>
    unfold runServer at ih ⊢
    rw [idleClients, List.foldl_append, ih]
    simp only [List.foldl_cons, List.foldl_nil, ServerState.step, if_true]
    congr 1
    have hm : ∀ (l : List Task) (a : Task), (l ++ [a]).modify l.length (Task.step dbg) = l ++ [a.step dbg] := by
      intro l a
      induction l with
      | nil => rfl
      | cons b l ih => simp [List.modify_succ_cons, ih]
    have := hm (List.replicate n ⟨.reading (List.replicate 1000 0), [], none⟩) (Task.new idleClient none)
    rw [List.length_replicate] at this
    rw [this, idle_step, ← List.replicate_succ']

/-- **C112 is false:** there is no bound for all clients together. The server accepts every connection, and for every `n` there is a run after which it keeps `n` times 1000
octets for `n` clients that are waited for and have sent 1000 octets each. -/
theorem C112_fails_idle_clients (n : Nat) :
    ∃ evs, (runServer dbg evs).alive = true ∧ (∀ t ∈ (runServer dbg evs).tasks, Unfinished t) ∧
      (∀ c r, (c, r) ∈ accepted evs → (received c).length = 1000) ∧ (accepted evs).length = n ∧
      ((runServer dbg evs).tasks.map (fun t => held t.phase)).sum = 1000 * n := by
  have hacc : ∀ a b, accepted (a ++ b) = accepted a ++ accepted b := by
    intro a b
    induction a with
    | nil => rfl
    | cons e a ih => cases e <;> simp [accepted, ih]
  have hlist : accepted (idleClients n) = List.replicate n (idleClient, none) := by
    induction n with
    | zero => rfl
    | succ n ih => rw [idleClients, hacc, ih, List.replicate_succ']; rfl
  refine ⟨idleClients n, ?_, ?_, ?_, ?_, ?_⟩
  · rw [idleClients_tasks]
  · rw [idleClients_tasks]
    intro t ht
    rw [List.eq_of_mem_replicate ht]
    exact ⟨fun _ _ e => (nomatch e), fun e => (nomatch e)⟩
  · rw [hlist]
    intro c r h
    have := List.eq_of_mem_replicate h
    rw [(Prod.mk.inj this).1]
    decide +kernel
  · rw [hlist, List.length_replicate]
  · rw [idleClients_tasks, List.map_replicate, List.sum_replicate_nat]
    simp only [held, List.length_replicate]
    omega

/-- `C112_request_partial` speaks about a client that is still sending. -/
example : ∃ t ∈ (runServer false [.accept [.data (List.replicate 400 0), .data (List.replicate 90 0), .data (List.replicate 9000 0)] none, .run 0, .run 0]).tasks,
    t.phase = .reading (List.replicate 490 0) := ⟨_, List.mem_singleton.mpr rfl, by decide +kernel⟩

/-- `C112_per_client_partial` also speaks about a task that waits for the resolver: here one that has received the first octet of a response. -/
example : ∃ t ∈ (runServer false [.accept [.data (exLine ++ [13, 10])] (some (100, [[0]])), .run 0, .run 0, .run 0]).tasks,
    t.phase = .driving ⟨ascii "a."⟩ 16 (ProofBuilder.new ⟨ascii "a."⟩ 16).1 ⟨[0], 98, frame (queryBytes ⟨ascii "a."⟩ 16)⟩ ∧ held t.phase = 3 :=
  ⟨_, List.mem_singleton.mpr rfl, by decide +kernel⟩

end Dnssec.Props
