import Verif.Spec.Files
import Verif.Props.Conn

/-! # C121: the server and its file descriptors -/

set_option autoImplicit false

namespace Dnssec.Props

open Dnssec Spec

variable {dbg : Bool}

theorem sockets_le_clients (s : ConnServer) : s.sockets ≤ 2 * clients s := by
  unfold ConnServer.sockets clients
  induction s.conns with
  | nil => simp
  | cons c l ih =>
    simp only [List.map_cons, List.sum_cons, List.countP_cons]
    have : c.sockets ≤ 2 * (if open? c = true then 1 else 0) := by
      cases c with
      | working t w => simp only [Conn.sockets, open?]; cases t.phase <;> simp [Phase.sockets]
      | writing _ _ _ => simp [Conn.sockets, open?]
      | closed _ => simp [Conn.sockets]
      | panicked => simp [Conn.sockets]
    omega

/-- A connection that is being worked on has not been answered. -/
def Pending (c : Conn) : Prop := ∀ t w, c = .working t w → Unfinished t

theorem pending_step {c : Conn} (h : Pending c) : Pending (c.step dbg) := by
  cases c with
  | working t w =>
    unfold Conn.step
    intro t' w' e
    simp only at e
    split at e
    · split at e <;> exact Conn.noConfusion e
    · exact Conn.noConfusion e
    · rename_i h1 h2
      obtain ⟨rfl, _⟩ := Conn.working.inj e
      exact ⟨h1, h2⟩
  | writing r es g =>
    intro t' w' e
    unfold Conn.step at e
    simp only at e
    split at e
    · exact Conn.noConfusion e
    · exact Conn.noConfusion e
    · exact Conn.noConfusion e
    · split at e <;> exact Conn.noConfusion e
  | closed g => exact fun _ _ e => Conn.noConfusion e
  | panicked => exact fun _ _ e => Conn.noConfusion e

theorem pending_run (evs : List ConnEvent) : ∀ c ∈ (runConns dbg evs).conns, Pending c := by
  have key : ∀ (evs : List ConnEvent) (s : ConnServer), (∀ c ∈ s.conns, Pending c) →
      ∀ c ∈ (evs.foldl (ConnServer.step dbg) s).conns, Pending c := by
    intro evs
    induction evs with
    | nil => intro s h; exact h
    | cons e evs ih =>
      intro s h
      refine ih _ ?_
      cases e with
      | accept c r w =>
        simp only [ConnServer.step]
        split
        · intro c' hc
          simp only [List.mem_append, List.mem_singleton] at hc
          rcases hc with hc | rfl
          · exact h c' hc
          · intro t w' e
            obtain ⟨rfl, _⟩ := Conn.working.inj e
            exact new_unfinished c r
        · exact h
      | acceptFails => exact h
      | run i =>
        simp only [ConnServer.step]
        split
        · intro c' hc
          obtain ⟨j, hj, rfl⟩ := List.getElem_of_mem hc
          simp only [List.getElem_modify]
          split
          · exact pending_step (h _ (List.getElem_mem _))
          · exact h _ (List.getElem_mem _)
        · exact h
  exact key evs _ (by simp)

/-- **C121.** At every moment the server has one or two sockets open for each client that is connected, and none for those that have been answered, whose connection
failed or whose task panicked. -/
theorem C121_sockets (evs : List ConnEvent) :
    (∀ c ∈ (runConns dbg evs).conns, if open? c then c.sockets = 1 ∨ c.sockets = 2 else c.sockets = 0) ∧
    clients (runConns dbg evs) ≤ (runConns dbg evs).sockets ∧ (runConns dbg evs).sockets ≤ 2 * clients (runConns dbg evs) := by
  have hp := pending_run (dbg := dbg) evs
  have h1 : ∀ c ∈ (runConns dbg evs).conns, if open? c then c.sockets = 1 ∨ c.sockets = 2 else c.sockets = 0 := by
    intro c hc
    cases c with
    | working t w =>
      have hu := hp _ hc t w rfl
      obtain ⟨phase, cl, r⟩ := t
      cases phase with
      | finished a o => exact absurd rfl (hu.1 a o)
      | panicked => exact absurd rfl hu.2
      | reading b => exact Or.inl rfl
      | connecting n t => exact Or.inr rfl
      | driving n t b s => exact Or.inr rfl
    | writing _ _ _ => exact Or.inl rfl
    | closed _ => rfl
    | panicked => rfl
  refine ⟨h1, ?_, sockets_le_clients _⟩
  unfold ConnServer.sockets clients
  revert h1
  generalize (runConns dbg evs).conns = l
  intro h1
  induction l with
  | nil => simp
  | cons c l ih =>
    have a := h1 c (by simp)
    have b := ih fun c hc => h1 c (by simp [hc])
    simp only [List.map_cons, List.sum_cons, List.countP_cons]
    split at a
    · rename_i ho; rw [if_pos ho]; omega
    · rename_i ho; rw [if_neg ho]; omega

/-- **C121, in part:** as long as fewer clients than half the number of its file descriptors are connected at the same time, the server accepts every
connection and goes on, and every client is served as if it were alone (C122), for however long and however many clients come and go.
Missing from the full property: more clients than that, for which it is false. -/
theorem C121_stays_up_partial {limit : Nat} {evs : List ConnEvent} (h : Affordable dbg limit evs)
    (hc : ∀ pre post, evs = pre ++ post → 2 * clients (runConns dbg pre) < limit) :
    (runConns dbg evs).alive = true ∧ (runConns dbg evs).conns.length = connections evs ∧
    ∀ pre c r w post, evs = pre ++ .accept c r w :: post → connWaits dbg c r ≤ post.count (.run (connections pre)) →
      (runConns dbg evs).conns[connections pre]? = some (match serveTcp dbg (wholeConnection r) c with
        | .done _ out => .closed (writeAll out w).1
        | .panicked => .panicked) := by
  have hn : ConnEvent.acceptFails ∉ evs := by
    intro hm
    obtain ⟨pre, post, e⟩ := List.append_of_mem hm
    have h1 := (h pre _ post e).1 rfl
    have h2 := hc pre _ e
    have h3 := sockets_le_clients (runConns dbg pre)
    omega
  refine ⟨(runConns_alive hn).1, (runConns_alive hn).2, ?_⟩
  intro pre c r w post e hw
  subst e
  exact C122_delivered hn hw

theorem connections_split : ∀ (evs : List ConnEvent) (i : Nat), i < connections evs →
    ∃ pre c r w post, evs = pre ++ .accept c r w :: post ∧ connections pre = i
  | [], i, h => by simp [connections] at h
  | .accept c r w :: evs, 0, _ => ⟨[], c, r, w, evs, rfl, rfl⟩
  | .accept c r w :: evs, i + 1, h => by
    obtain ⟨pre, c', r', w', post, e, l⟩ := connections_split evs i (by simpa [connections] using h)
    exact ⟨.accept c r w :: pre, c', r', w', post, by rw [e]; rfl, by simpa [connections] using l⟩
  | .acceptFails :: evs, i, h => by
    obtain ⟨pre, c', r', w', post, e, l⟩ := connections_split evs i (by simpa [connections] using h)
    exact ⟨.acceptFails :: pre, c', r', w', post, by rw [e]; rfl, by simpa [connections] using l⟩
  | .run k :: evs, i, h => by
    obtain ⟨pre, c', r', w', post, e, l⟩ := connections_split evs i (by simpa [connections] using h)
    exact ⟨.run k :: pre, c', r', w', post, by rw [e]; rfl, by simpa [connections] using l⟩

/-- **C121.** No socket is leaked: when every client that has connected has been served as far as it can be, the server has no socket open but the one
it listens on, whatever became of the requests, the connections to the resolver and the writes. -/
theorem C121_given_back {evs : List ConnEvent} (hn : ConnEvent.acceptFails ∉ evs) (hw : AllWoken dbg evs) :
    (runConns dbg evs).sockets = 0 ∧ clients (runConns dbg evs) = 0 := by
  have hall : ∀ c ∈ (runConns dbg evs).conns, c.sockets = 0 := by
    intro c hc
    obtain ⟨i, hi, rfl⟩ := List.getElem_of_mem hc
    obtain ⟨pre, c, r, w, post, e, l⟩ := connections_split evs i (by rw [← (runConns_alive (dbg := dbg) hn).2]; exact hi)
    have hn' := hn
    rw [e] at hn'
    have h1 := C122_delivered (dbg := dbg) hn' (hw pre c r w post e)
    rw [← e, l, List.getElem?_eq_getElem hi, Option.some.injEq] at h1
    rw [h1]
    split <;> rfl
  have h0 : (runConns dbg evs).sockets = 0 := by
    unfold ConnServer.sockets
    revert hall
    generalize (runConns dbg evs).conns = l
    intro hall
    induction l with
    | nil => rfl
    | cons t l ih =>
      simp only [List.map_cons, List.sum_cons, hall t (by simp), ih fun t ht => hall t (by simp [ht])]
  exact ⟨h0, by have := (C121_sockets (dbg := dbg) evs).2.1; omega⟩

theorem few_clients {limit : Nat} {evs : List ConnEvent} (hn : ConnEvent.acceptFails ∉ evs) (hl : 2 * connections evs < limit) :
    Affordable dbg limit evs ∧ ∀ pre post, evs = pre ++ post → 2 * clients (runConns dbg pre) < limit := by
  have h2 : ∀ pre post, evs = pre ++ post → 2 * clients (runConns dbg pre) < limit := by
    rintro pre post rfl
    have h1 : clients (runConns dbg pre) ≤ (runConns dbg pre).conns.length := List.countP_le_length
    rw [(runConns_alive fun h => hn (List.mem_append_left _ h)).2] at h1
    rw [connections, List.countP_append, ← connections] at hl
    omega
  refine ⟨fun pre e post h => ⟨fun he => absurd (by rw [h, he]; simp) hn, fun c r w he => ?_⟩, h2⟩
  have := h2 pre _ h
  have := sockets_le_clients (runConns dbg pre)
  omega

/-- Two clients ask for what does not exist; one takes its answer, the writes to the other fail after three octets. -/
def twoClients : List ConnEvent :=
  .accept [.data badRequest] none [.takes 3] :: .accept [.data badRequest] none (List.replicate 200 (.takes 50)) ::
    (List.replicate 200 (.run 0) ++ List.replicate 200 (.run 1))

/-- For these, with five descriptors, the hypotheses of `C121_stays_up_partial` are met, and those of `C121_given_back`. -/
example (dbg : Bool) : (Affordable dbg 5 twoClients ∧ ∀ pre post, twoClients = pre ++ post → 2 * clients (runConns dbg pre) < 5) ∧
    ConnEvent.acceptFails ∉ twoClients ∧ AllWoken dbg twoClients := by
  have hn : ConnEvent.acceptFails ∉ twoClients := by decide +kernel
  have hw : connWaits dbg [.data badRequest] none ≤ 200 := by cases dbg <;> decide +kernel
  refine ⟨few_clients hn (by decide +kernel), hn, ?_⟩
  intro pre c r w post h
  rcases pre with _ | ⟨a, _ | ⟨b, pre⟩⟩
  · simp only [twoClients, List.nil_append, List.cons.injEq, ConnEvent.accept.injEq] at h
    obtain ⟨⟨rfl, rfl, rfl⟩, rfl⟩ := h
    exact Nat.le_trans hw (by decide +kernel)
  · simp only [twoClients, List.cons_append, List.nil_append, List.cons.injEq, ConnEvent.accept.injEq] at h
    obtain ⟨rfl, ⟨rfl, rfl, rfl⟩, rfl⟩ := h
    exact Nat.le_trans hw (by decide +kernel)
  · exfalso
    simp only [twoClients, List.cons_append, List.cons.injEq] at h
    have hm : ConnEvent.accept c r w ∈ pre ++ .accept c r w :: post := by simp
    rw [← h.2.2] at hm
    rcases List.mem_append.1 hm with hm | hm <;> exact ConnEvent.noConfusion (List.eq_of_mem_replicate hm)

theorem conns_le (evs : List ConnEvent) : (runConns dbg evs).conns.length ≤ connections evs := by
  have key : ∀ (evs : List ConnEvent) (s : ConnServer),
      (evs.foldl (ConnServer.step dbg) s).conns.length ≤ s.conns.length + connections evs := by
    intro evs
    induction evs with
    | nil => intro s; simp
    | cons e evs ih =>
      intro s
      refine Nat.le_trans (ih _) ?_
      cases e with
      | accept c r w =>
        simp only [ConnServer.step, connections, List.countP_cons]
        split
        · simp; omega
        · simp
      | acceptFails => simp [ConnServer.step, connections]
      | run j =>
        simp only [ConnServer.step, connections, List.countP_cons]
        split <;> simp
  simpa [runConns] using key evs ⟨true, []⟩

theorem affordable_snoc {limit : Nat} {evs : List ConnEvent} {e : ConnEvent} (h : Affordable dbg limit evs)
    (h1 : e = .acceptFails → limit ≤ (runConns dbg evs).sockets) (h2 : ∀ c r w, e = .accept c r w → (runConns dbg evs).sockets < limit) :
    Affordable dbg limit (evs ++ [e]) := by
  intro pre e' post hs
  rcases List.eq_nil_or_concat post with rfl | ⟨post', x, rfl⟩
  · obtain ⟨rfl, he⟩ := List.append_inj' hs rfl
    obtain rfl : e = e' := by simpa using he
    exact ⟨h1, h2⟩
  · rw [List.concat_eq_append, ← List.cons_append, ← List.append_assoc] at hs
    exact h pre e' post' (List.append_inj' hs rfl).1

/-- `n` clients whose requests have been read, each with a connection to the resolver that is being made. -/
def lookingUp : Nat → List ConnEvent
  | 0 => []
  | n + 1 => lookingUp n ++ [.accept [.data (exLine ++ crlf)] (some (2, [])) []] ++ [.run n]

theorem lookingUp_run (n : Nat) : runConns dbg (lookingUp n) =
    ⟨true, List.replicate n (.working ⟨.connecting ⟨ascii "a."⟩ 16, [], some (2, [])⟩ [])⟩ := by
  induction n with
  | zero => rfl
  | succ n ih =>
    have e : Conn.step dbg (.working (Task.new [.data (exLine ++ crlf)] (some (2, []))) []) =
        .working ⟨.connecting ⟨ascii "a."⟩ 16, [], some (2, [])⟩ [] := by cases dbg <;> decide +kernel
    rw [runConns] at ih ⊢
    rw [lookingUp, List.foldl_append, List.foldl_append, ih]
    simp only [List.foldl_cons, List.foldl_nil, ConnServer.step, if_true]
    have hm : ∀ (l : List Conn) (a : Conn), (l ++ [a]).modify l.length (Conn.step dbg) = l ++ [a.step dbg] := by
      intro l a
      induction l with
      | nil => rfl
      | cons b l ih => simp [List.modify_succ_cons, ih]
    have := hm (List.replicate n (.working ⟨.connecting ⟨ascii "a."⟩ 16, [], some (2, [])⟩ [])) (.working (Task.new [.data (exLine ++ crlf)] (some (2, []))) [])
    rw [List.length_replicate] at this
    rw [this, e, ← List.replicate_succ']

theorem lookingUp_sockets (n : Nat) : (runConns dbg (lookingUp n)).sockets = 2 * n ∧ clients (runConns dbg (lookingUp n)) = n := by
  rw [lookingUp_run]
  refine ⟨?_, ?_⟩
  · simp only [ConnServer.sockets, List.map_replicate, List.sum_replicate_nat]
    simp [Conn.sockets, Phase.sockets]
    omega
  · rw [clients, List.countP_replicate]
    exact if_pos (by decide +kernel)

/-- **C121.** Half of the descriptors is all that can be allowed: with twice as many descriptors as there are clients, all of them waiting for the resolver, accepting may
fail, and the server ends. -/
theorem C121_half_is_needed (n : Nat) : ∃ evs, Affordable dbg (2 * n) evs ∧ connections evs = n ∧ (runConns dbg evs).alive = false ∧
    ∀ pre post, evs = pre ++ post → clients (runConns dbg pre) ≤ n := by
  have hconn : ∀ k, connections (lookingUp k) = k := by
    intro k
    induction k with
    | zero => rfl
    | succ k ih =>
      rw [lookingUp, connections, List.countP_append, List.countP_append, ← connections, ih]
      simp
  have haff : ∀ k, k ≤ n → Affordable dbg (2 * n) (lookingUp k) := by
    intro k
    induction k with
    | zero => intro _ pre e post h; simp [lookingUp] at h
    | succ k ih =>
      intro hk
      refine affordable_snoc (affordable_snoc (ih (by omega)) (fun h => ConnEvent.noConfusion h) (fun _ _ _ _ => ?_)) (fun h => ConnEvent.noConfusion h)
        (fun _ _ _ h => ConnEvent.noConfusion h)
      rw [(lookingUp_sockets k).1]
      omega
  have hc : connections (lookingUp n ++ [.acceptFails]) = n := by
    rw [connections, List.countP_append, ← connections, hconn]
    simp
  refine ⟨lookingUp n ++ [.acceptFails], affordable_snoc (haff n (Nat.le_refl _)) (fun _ => ?_) (fun _ _ _ h => ConnEvent.noConfusion h), hc, ?_, ?_⟩
  · rw [(lookingUp_sockets n).1]
    exact Nat.le_refl _
  · have := lookingUp_run (dbg := dbg) n
    rw [runConns] at this ⊢
    rw [List.foldl_append, this]
    rfl
  · intro pre post h
    have h1 : clients (runConns dbg pre) ≤ (runConns dbg pre).conns.length := List.countP_le_length
    have h2 : ∀ evs : List ConnEvent, (runConns dbg evs).conns.length ≤ connections evs := conns_le
    have h3 := h2 pre
    rw [h, connections, List.countP_append, ← connections] at hc
    omega

/-- A client that has sent a request except for the end of the line, then `n` clients that send nothing. -/
def silentClients (n : Nat) : List ConnEvent :=
  .accept [.data exLine, .wouldBlock, .data crlf] none [] :: .run 0 :: List.replicate n (.accept [] none [])

theorem silent_run (n : Nat) : runConns dbg (silentClients n) =
    ⟨true, .working ⟨.reading exLine, [.wouldBlock, .data crlf], none⟩ [] :: List.replicate n (.working (Task.new [] none) [])⟩ := by
  have key : ∀ (n : Nat) (l : List Conn), (List.replicate n (ConnEvent.accept [] none [])).foldl (ConnServer.step dbg) ⟨true, l⟩ =
      ⟨true, l ++ List.replicate n (.working (Task.new [] none) [])⟩ := by
    intro n
    induction n with
    | zero => intro l; simp
    | succ n ih =>
      intro l
      rw [List.replicate_succ, List.foldl_cons]
      simp only [ConnServer.step, if_true]
      rw [ih, List.append_assoc, List.replicate_succ]
      rfl
  have e : ((ConnServer.step dbg ⟨true, []⟩ (.accept [.data exLine, .wouldBlock, .data crlf] none [])).step dbg (.run 0)) =
      ⟨true, [.working ⟨.reading exLine, [.wouldBlock, .data crlf], none⟩ []]⟩ := by
    cases dbg <;> decide +kernel
  rw [runConns, silentClients, List.foldl_cons, List.foldl_cons, e, key]
  rfl

theorem silent_sockets (n : Nat) : (runConns dbg (silentClients n)).sockets = n + 1 := by
  rw [silent_run]
  simp only [ConnServer.sockets, List.map_cons, List.sum_cons, List.map_replicate, List.sum_replicate_nat]
  simp [Conn.sockets, Phase.sockets, Task.new]
  omega

theorem silent_affordable (n : Nat) : Affordable dbg (n + 1) (silentClients n ++ [.acceptFails]) := by
  intro pre e post h
  have key : ∀ (n : Nat) (pre post : List ConnEvent), List.replicate n (.accept [] none []) ++ [.acceptFails] = pre ++ e :: post →
      ∃ k, k ≤ n ∧ pre = List.replicate k (.accept [] none []) ∧ (e = .acceptFails → k = n) ∧ (∀ c r w, e = .accept c r w → k < n) := by
    intro n
    induction n with
    | zero =>
      intro pre post h
      cases pre with
      | nil =>
        simp only [List.replicate_zero, List.nil_append, List.cons.injEq] at h
        exact ⟨0, Nat.le_refl _, rfl, fun _ => rfl, fun c r w he => by rw [← h.1] at he; nomatch he⟩
      | cons a l => simp at h
    | succ n ih =>
      intro pre post h
      rw [List.replicate_succ, List.cons_append] at h
      cases pre with
      | nil =>
        simp only [List.nil_append, List.cons.injEq] at h
        exact ⟨0, Nat.zero_le _, rfl, fun he => by rw [← h.1] at he; (nomatch he), fun _ _ _ _ => Nat.succ_pos n⟩
      | cons a l =>
        simp only [List.cons_append, List.cons.injEq] at h
        obtain ⟨k, h1, h2, h3, h4⟩ := ih l post h.2
        exact ⟨k + 1, by omega, by rw [← h.1, h2, List.replicate_succ], fun he => by rw [h3 he], fun c r w he => by have := h4 c r w he; omega⟩
  simp only [silentClients, List.cons_append] at h
  cases pre with
  | nil =>
    simp only [List.nil_append, List.cons.injEq] at h
    exact ⟨fun he => by rw [← h.1] at he; (nomatch he), fun _ _ _ _ => Nat.succ_pos n⟩
  | cons a pre =>
    simp only [List.cons_append, List.cons.injEq] at h
    cases pre with
    | nil =>
      simp only [List.nil_append, List.cons.injEq] at h
      exact ⟨fun he => by rw [← h.2.1] at he; (nomatch he), fun _ _ _ he => by rw [← h.2.1] at he; nomatch he⟩
    | cons b pre =>
      simp only [List.cons_append, List.cons.injEq] at h
      obtain ⟨k, h1, h2, h3, h4⟩ := key n pre post h.2.2
      have hs : (runConns dbg (a :: b :: pre)).sockets = k + 1 := by
        rw [← h.1, ← h.2.1, h2]
        exact silent_sockets k
      rw [hs]
      exact ⟨fun he => by rw [h3 he]; exact Nat.le_refl _, fun c r w he => by have := h4 c r w he; omega⟩

theorem dead_conns (evs : List ConnEvent) : ∀ s : ConnServer, s.alive = false → evs.foldl (ConnServer.step dbg) s = s := by
  induction evs with
  | nil => intro s _; rfl
  | cons e evs ih =>
    intro s h
    have : s.step dbg e = s := by
      obtain ⟨a, ts⟩ := s
      simp only at h
      subst h
      cases e <;> simp [ConnServer.step]
    rw [List.foldl_cons, this, ih s h]

/-- **C121 is false:** with however many file descriptors, clients that connect and send nothing end the server. They are fewer than the descriptors; a
client that would be answered if its request were read to the end is not, and nobody is served any more. -/
theorem C121_fails_silent_clients {limit : Nat} (h : 0 < limit) :
    ∃ (client : List SockEvent) (asked : List (Name × UInt16)) (out : Bytes) (n : Nat), n < limit ∧
      serveTcp dbg none client = .done asked out ∧ out ≠ [] ∧
      let evs := .accept client none [] :: .run 0 :: List.replicate n (.accept [] none []) ++ [.acceptFails]
      Affordable dbg limit evs ∧ (runConns dbg evs).alive = false ∧ (runConns dbg evs).conns.length = n + 1 ∧
      (∀ post, runConns dbg (evs ++ post) = runConns dbg evs) ∧ ∀ c ∈ (runConns dbg evs).conns, open? c = true ∧ got c = [] := by
  obtain ⟨n, rfl⟩ : ∃ n, limit = n + 1 := ⟨limit - 1, by omega⟩
  have hrun : runConns dbg (silentClients n ++ [.acceptFails]) =
      ⟨false, .working ⟨.reading exLine, [.wouldBlock, .data crlf], none⟩ [] :: List.replicate n (.working (Task.new [] none) [])⟩ := by
    have := silent_run (dbg := dbg) n
    rw [runConns] at this ⊢
    rw [List.foldl_append, this]
    rfl
  refine ⟨[.data exLine, .wouldBlock, .data crlf], _, _, n, Nat.lt_succ_self n, exServed dbg, by decide +kernel, ?_⟩
  change Affordable dbg (n + 1) (silentClients n ++ [.acceptFails]) ∧ (runConns dbg (silentClients n ++ [.acceptFails])).alive = false ∧
    (runConns dbg (silentClients n ++ [.acceptFails])).conns.length = n + 1 ∧
    (∀ post, runConns dbg (silentClients n ++ [.acceptFails] ++ post) = runConns dbg (silentClients n ++ [.acceptFails])) ∧
    ∀ c ∈ (runConns dbg (silentClients n ++ [.acceptFails])).conns, open? c = true ∧ got c = []
  refine ⟨silent_affordable n, by rw [hrun], by rw [hrun]; simp, fun post => ?_, ?_⟩
  · have h0 := hrun
    rw [runConns] at h0 ⊢
    rw [List.foldl_append, h0, dead_conns post _ rfl, hrun]
  · rw [hrun]
    intro c hc
    rcases List.mem_cons.1 hc with rfl | hc
    · exact ⟨rfl, rfl⟩
    · rw [List.eq_of_mem_replicate hc]
      exact ⟨rfl, rfl⟩

/-- Two silent clients and three descriptors. -/
example : (runConns true (silentClients 2)).sockets = 3 ∧ (runConns true (silentClients 2 ++ [.acceptFails, .run 0, .run 0])).alive = false := by
  decide +kernel

end Dnssec.Props
