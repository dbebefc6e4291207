import Verif.Spec.ConnMemory
import Verif.Proofs.Memory
import Verif.Props.Files

/-! # C112 with clients that read slowly: what the server keeps until a response has been written -/

set_option autoImplicit false

namespace Dnssec.Props

open Dnssec Spec

variable {dbg : Bool}

/-- What holds of a connection at every moment. -/
def ConnFits (dbg : Bool) : Conn → Prop
  | .working t _ => t.phase.Fits dbg
  | .writing rest _ written => written.length + rest.length ≤ 24903600
  | .closed _ => True
  | .panicked => True

theorem connFits_step {c : Conn} (h : ConnFits dbg c) : ConnFits dbg (c.step dbg) := by
  cases c with
  | working t w =>
    have hs := step_fits (dbg := dbg) (t := t) h
    simp only [Conn.step]
    split
    · rename_i e
      rw [e] at hs
      split
      · trivial
      · exact Nat.le_trans (Nat.le_of_eq (Nat.zero_add _)) hs
    · trivial
    · exact hs
  | writing rest w g =>
    have h' : g.length + rest.length ≤ 24903600 := h
    simp only [Conn.step]
    split
    · trivial
    · trivial
    · trivial
    · split
      · trivial
      · show (g ++ rest.take _).length + (rest.drop _).length ≤ _
        rw [List.length_append, List.length_take, List.length_drop]
        omega
  | closed g => trivial
  | panicked => trivial

theorem runConns_fits (evs : List ConnEvent) : ∀ c ∈ (runConns dbg evs).conns, ConnFits dbg c := by
  have key : ∀ (evs : List ConnEvent) (s : ConnServer), (∀ c ∈ s.conns, ConnFits dbg c) →
      ∀ c ∈ (evs.foldl (ConnServer.step dbg) s).conns, ConnFits dbg c := by
    intro evs
    induction evs with
    | nil => intro s h; exact h
    | cons e evs ih =>
      intro s h
      refine ih _ ?_
      unfold ConnServer.step
      cases e with
      | acceptFails => exact h
      | accept c r w =>
        simp only
        split
        · intro t ht
          rcases List.mem_append.mp ht with ht | ht
          · exact h t ht
          · rw [List.mem_singleton.mp ht]
            show ([] : Bytes).length < 4096
            decide
        · exact h
      | run i =>
        simp only
        split
        · intro t ht
          obtain ⟨j, hj⟩ := List.mem_iff_getElem?.mp ht
          rw [List.getElem?_modify] at hj
          cases hj' : s.conns[j]? with
          | none => rw [hj'] at hj; simp at hj
          | some u =>
            have hu := h u (List.mem_iff_getElem?.mpr ⟨j, hj'⟩)
            rw [hj'] at hj
            by_cases hi : i = j
            · simp [hi] at hj
              rw [← hj]
              exact connFits_step hu
            · simp [hi] at hj
              rw [← hj]
              exact hu
        · exact h
  exact key evs _ (by simp)

theorem connFits_kept {c : Conn} (h : ConnFits dbg c) : kept c ≤ 25000000 * (if open? c then 1 else 0) := by
  cases c with
  | working t w => exact fits_held h
  | writing rest w g => exact Nat.le_trans (show g.length + rest.length ≤ 24903600 from h) (show (24903600 : Nat) ≤ 25000000 * 1 by decide)
  | closed g => exact Nat.zero_le _
  | panicked => exact Nat.zero_le _

/-- **C112, for each client:** at every moment of every run of the server, however slowly clients read their responses, what is kept for a client is at most 25 million
octets, and nothing once its connection is closed. Missing from the full property: a bound for all clients together, for which it is false. -/
theorem C112_slow_readers_partial (evs : List ConnEvent) :
    ∀ c ∈ (runConns dbg evs).conns, kept c ≤ 25000000 ∧ (open? c = false → kept c = 0) := by
  intro c hc
  have h := connFits_kept (runConns_fits evs c hc)
  cases ho : open? c with
  | true => exact ⟨by simpa [ho] using h, fun e => nomatch e⟩
  | false =>
    rw [ho] at h
    have h0 : kept c = 0 := Nat.le_zero.1 h
    exact ⟨by omega, fun _ => h0⟩

/-- **C112, all clients:** what is kept for all of them together is at most 25 million octets for each client that is connected at the moment. Missing: a bound that does
not depend on how many are. -/
theorem C112_connected_partial (evs : List ConnEvent) : keptForAll (runConns dbg evs) ≤ 25000000 * clients (runConns dbg evs) := by
  have key : ∀ l : List Conn, (∀ c ∈ l, ConnFits dbg c) → (l.map kept).sum ≤ 25000000 * l.countP open? := by
    intro l
    induction l with
    | nil => simp
    | cons a l ih =>
      intro h
      have h1 := connFits_kept (h a (by simp))
      have h2 := ih fun t ht => h t (by simp [ht])
      rw [List.map_cons, List.sum_cons, List.countP_cons, Nat.mul_add]
      omega
  exact key _ (runConns_fits evs)

/-- **C112.** No memory is leaked: when every client that has connected has been served as far as it can be, nothing is kept for any of them. -/
theorem C112_given_back {evs : List ConnEvent} (hn : ConnEvent.acceptFails ∉ evs) (hw : AllWoken dbg evs) : keptForAll (runConns dbg evs) = 0 := by
  have h := C112_connected_partial (dbg := dbg) evs
  rw [(C121_given_back hn hw).2] at h
  exact Nat.le_zero.1 h

/-- The two clients of C121 meet the hypotheses of `C112_given_back`: one that reads all, and one that is gone after three octets. -/
example (dbg : Bool) : keptForAll (runConns dbg twoClients) = 0 ∧ 0 < keptForAll (runConns dbg (twoClients.take 3)) := by
  cases dbg <;> decide +kernel

/-- `n` clients that have been answered but read nothing. -/
def notReading : Nat → List ConnEvent
  | 0 => []
  | n + 1 => notReading n ++ [.accept [.data badRequest] none [.takes 1]] ++ [.run n]

/-- The response they get. -/
def unread : Bytes := match serveTcp false (wholeConnection none) [.data badRequest] with
  | .done _ out => out
  | .panicked => []

theorem notReading_run (n : Nat) : runConns dbg (notReading n) = ⟨true, List.replicate n (.writing unread [.takes 1] [])⟩ := by
  induction n with
  | zero => rfl
  | succ n ih =>
    have e : Conn.step dbg (.working (Task.new [.data badRequest] none) [.takes 1]) = .writing unread [.takes 1] [] := by
      cases dbg <;> decide +kernel
    rw [runConns] at ih ⊢
    rw [notReading, List.foldl_append, List.foldl_append, ih]
    simp only [List.foldl_cons, List.foldl_nil, ConnServer.step, if_true]
    have hm : ∀ (l : List Conn) (a : Conn), (l ++ [a]).modify l.length (Conn.step dbg) = l ++ [a.step dbg] := by
      intro l a
      induction l with
      | nil => rfl
      | cons b l ih => simp [List.modify_succ_cons, ih]
    have := hm (List.replicate n (.writing unread [.takes 1] [])) (.working (Task.new [.data badRequest] none) [.takes 1])
    rw [List.length_replicate] at this
    rw [this, e, ← List.replicate_succ']

/-- **C112 is false**, also for clients that have sent all of their requests: for every `n` there is a run in which `n` clients are connected and the server keeps at least
`100 * n` octets, those of responses of which nothing has been read. -/
theorem C112_fails_slow_readers (n : Nat) : ∃ evs, (runConns dbg evs).alive = true ∧ clients (runConns dbg evs) = n ∧ connections evs = n ∧
    (∀ c ∈ (runConns dbg evs).conns, ∃ rest w, c = .writing rest w []) ∧ 100 * n ≤ keptForAll (runConns dbg evs) := by
  refine ⟨notReading n, ?_, ?_, ?_, ?_, ?_⟩
  · rw [notReading_run]
  · rw [notReading_run, clients, List.countP_replicate]
    exact if_pos rfl
  · induction n with
    | zero => rfl
    | succ n ih =>
      rw [notReading, connections, List.countP_append, List.countP_append, ← connections, ih]
      simp
  · rw [notReading_run]
    intro c hc
    exact ⟨_, _, List.eq_of_mem_replicate hc⟩
  · rw [notReading_run, keptForAll, List.map_replicate, List.sum_replicate_nat]
    have : 100 ≤ kept (.writing unread [.takes 1] []) := by decide +kernel
    rw [Nat.mul_comm]
    exact Nat.mul_le_mul_left n this

end Dnssec.Props
