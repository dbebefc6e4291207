import Verif.Spec.Conn
import Verif.Proofs.Tasks
import Verif.Proofs.Write

/-! # Lemmas for C122 -/

set_option autoImplicit false

namespace Dnssec

open Spec

variable {dbg : Bool}

/-- The connection after some steps. -/
def Conn.steps (dbg : Bool) : Nat → Conn → Conn
  | 0, c => c
  | n + 1, c => Conn.steps dbg n (c.step dbg)

theorem conn_closed (n : Nat) (g : Bytes) : Conn.steps dbg n (.closed g) = .closed g := by
  induction n with
  | zero => rfl
  | succ n ih => exact ih

theorem conn_panicked (n : Nat) : Conn.steps dbg n .panicked = .panicked := by
  induction n with
  | zero => rfl
  | succ n ih => exact ih

/-- A connection that is writing. -/
theorem conn_writing (n : Nat) : ∀ (rest : Bytes) (es : List WriteEvent) (g : Bytes), rest ≠ [] →
    (∃ k, got (Conn.steps dbg n (.writing rest es g)) = g ++ rest.take k) ∧
    (rest.length ≤ n → Conn.steps dbg n (.writing rest es g) = .closed (g ++ (writeAll rest es).1)) := by
  induction n with
  | zero =>
    intro rest es g h
    exact ⟨⟨0, by simp [Conn.steps, got]⟩, fun hl => absurd (List.length_eq_zero_iff.1 (Nat.le_zero.1 hl)) h⟩
  | succ n ih =>
    intro rest es g h
    have hne : rest.isEmpty = false := by cases rest <;> simp_all
    match es with
    | [] =>
      simp only [Conn.steps, Conn.step, conn_closed, writeAll]
      exact ⟨⟨0, by simp [got]⟩, fun _ => by simp⟩
    | .fails :: es =>
      simp only [Conn.steps, Conn.step, conn_closed, writeAll, hne]
      exact ⟨⟨0, by simp [got]⟩, fun _ => by simp⟩
    | .takes 0 :: es =>
      simp only [Conn.steps, Conn.step, conn_closed, writeAll, hne]
      exact ⟨⟨0, by simp [got]⟩, fun _ => by simp⟩
    | .takes (k + 1) :: es =>
      simp only [Conn.steps, Conn.step, writeAll, hne]
      by_cases hd : (rest.drop (k + 1)).isEmpty = true
      · have hd' : rest.drop (k + 1) = [] := by simpa using hd
        rw [if_pos hd, conn_closed]
        refine ⟨⟨rest.length, by simp [got]⟩, fun _ => ?_⟩
        rw [hd']
        simp only [writeAll_nil, List.append_nil, Bool.false_eq_true, if_false]
        rw [List.take_of_length_le (by simpa using hd')]
      · have hd' : rest.drop (k + 1) ≠ [] := by simpa using hd
        rw [if_neg hd]
        obtain ⟨⟨j, hj⟩, h2⟩ := ih (rest.drop (k + 1)) es (g ++ rest.take (k + 1)) hd'
        refine ⟨⟨k + 1 + j, ?_⟩, fun hl => ?_⟩
        · rw [hj, List.append_assoc]
          exact congrArg (g ++ ·) List.take_add.symm
        · rw [h2 (by rw [List.length_drop]; omega), List.append_assoc]
          simp

/-- A connection whose response is not ready. -/
theorem conn_working (es : List WriteEvent) (n : Nat) : ∀ {t : Task}, t.Good dbg → Unfinished t →
    (∀ asked out, t.outcome dbg = .finished asked out →
      (∃ k, got (Conn.steps dbg n (.working t es)) = out.take k) ∧
      (t.left + out.length ≤ n → Conn.steps dbg n (.working t es) = .closed (writeAll out es).1)) ∧
    (t.outcome dbg = .panicked → got (Conn.steps dbg n (.working t es)) = [] ∧ (t.left ≤ n → Conn.steps dbg n (.working t es) = .panicked)) := by
  induction n with
  | zero =>
    intro t hg hu
    have hl : t.left ≠ 0 := by
      intro h0
      have := outcome_end (dbg := dbg) h0
      obtain ⟨phase, c, r⟩ := t
      cases phase with
      | reading b => cases r <;> simp [Task.left, waits] at h0
      | connecting n t => simp [Task.left] at h0
      | driving n t b s => simp [Task.left] at h0
      | finished a o => exact hu.1 a o rfl
      | panicked => exact hu.2 rfl
    exact ⟨fun asked out _ => ⟨⟨0, rfl⟩, fun h => absurd h (by omega)⟩, fun _ => ⟨rfl, fun h => absurd h (by omega)⟩⟩
  | succ n ih =>
    intro t hg hu
    obtain ⟨hg', ho⟩ := step_good hg
    have hl := step_left (dbg := dbg) t
    rw [← ho]
    have hpos : 0 < t.left := by
      obtain ⟨phase, c, r⟩ := t
      cases phase with
      | reading b => cases r <;> simp [Task.left, waits]
      | connecting n t => simp [Task.left]
      | driving n t b s => simp [Task.left]
      | finished a o => exact absurd rfl (hu.1 a o)
      | panicked => exact absurd rfl hu.2
    have key : Conn.steps dbg (n + 1) (.working t es) = Conn.steps dbg n (match (t.step dbg).phase with
        | .finished _ out => if out.isEmpty then .closed [] else .writing out es []
        | .panicked => .panicked
        | _ => .working (t.step dbg) es) := rfl
    rw [key]
    have hend : ∀ p, (t.step dbg).phase = p → ((∃ a o, p = .finished a o) ∨ p = .panicked) → (t.step dbg).outcome dbg = p := by
      intro p hp hc
      unfold Task.outcome
      rw [hp]
      rcases hc with ⟨a, o, rfl⟩ | rfl <;> rfl
    have hun : (∀ a o, (t.step dbg).phase ≠ .finished a o) → (t.step dbg).phase ≠ .panicked →
        (match (t.step dbg).phase with
          | .finished _ out => if out.isEmpty then Conn.closed [] else .writing out es []
          | .panicked => .panicked
          | _ => .working (t.step dbg) es) = .working (t.step dbg) es := by
      intro h1 h2
      split
      · rename_i a o e; exact absurd e (h1 a o)
      · rename_i e; exact absurd e h2
      · rfl
    by_cases hf : ∃ a o, (t.step dbg).phase = .finished a o
    · obtain ⟨a, o, hf⟩ := hf
      have hout := hend _ hf (Or.inl ⟨a, o, rfl⟩)
      rw [hf, hout]
      refine ⟨fun asked out e => ?_, fun e => nomatch e⟩
      obtain ⟨rfl, rfl⟩ := Phase.finished.inj e
      by_cases he : o = []
      · subst he
        simp only [List.isEmpty_nil, if_true, conn_closed, writeAll_nil]
        exact ⟨⟨0, rfl⟩, fun _ => trivial⟩
      · have he' : o.isEmpty = false := by cases o <;> simp_all
        simp only [he', Bool.false_eq_true, if_false]
        obtain ⟨⟨k, hk⟩, h2⟩ := conn_writing (dbg := dbg) n o es [] he
        exact ⟨⟨k, by simpa using hk⟩, fun h => by rw [h2 (by omega)]; rfl⟩
    · by_cases hp : (t.step dbg).phase = .panicked
      · have hout := hend _ hp (Or.inr rfl)
        rw [hp, hout]
        simp only [conn_panicked]
        exact ⟨fun _ _ e => (nomatch e), fun _ => ⟨rfl, fun _ => trivial⟩⟩
      · rw [hun (fun a o e => hf ⟨a, o, e⟩) hp]
        obtain ⟨h1, h2⟩ := ih (t := t.step dbg) hg' ⟨fun a o e => hf ⟨a, o, e⟩, hp⟩
        refine ⟨fun asked out e => ?_, fun e => ?_⟩
        · obtain ⟨a, b⟩ := h1 asked out e
          exact ⟨a, fun h => b (by omega)⟩
        · obtain ⟨a, b⟩ := h2 e
          exact ⟨a, fun h => b (by omega)⟩

/-! ### The server -/

/-- The state of the `i`th connection, after the events `evs`, from the state of the server. -/
theorem foldl_conn (i : Nat) : ∀ (evs : List ConnEvent) (s : ConnServer) (c : Conn), s.conns[i]? = some c →
    ∃ n, (evs.foldl (ConnServer.step dbg) s).conns[i]? = some (Conn.steps dbg n c) ∧
      (s.alive = true → ConnEvent.acceptFails ∉ evs → n = evs.count (.run i))
  | [], s, t, h => ⟨0, h, fun _ _ => rfl⟩
  | e :: evs, s, t, h => by
    cases e with
    | accept c r w =>
      have h1 : (s.step dbg (.accept c r w)).conns[i]? = some t := by
        unfold ConnServer.step
        simp only
        split
        · simp only
          rw [List.getElem?_append_left (by
            have := List.getElem?_eq_some_iff.mp h
            exact this.1)]
          exact h
        · exact h
      obtain ⟨n, a, b⟩ := foldl_conn i evs _ t h1
      refine ⟨n, a, fun ha hn => ?_⟩
      rw [b (by simp [ConnServer.step, ha]) (fun hh => hn (by simp [hh]))]
      simp
    | acceptFails =>
      obtain ⟨n, a, _⟩ := foldl_conn i evs (s.step dbg .acceptFails) t h
      exact ⟨n, a, fun _ hn => absurd (by simp) hn⟩
    | run j =>
      by_cases ha : s.alive = true
      · have e1 : s.step dbg (.run j) = { s with conns := s.conns.modify j (Conn.step dbg) } := by simp [ConnServer.step, ha]
        by_cases hij : j = i
        · subst hij
          have h1 : (s.step dbg (.run j)).conns[j]? = some (t.step dbg) := by
            rw [e1]; simp [h]
          obtain ⟨n, a, b⟩ := foldl_conn j evs _ _ h1
          refine ⟨n + 1, a, fun _ hn => ?_⟩
          rw [b (by rw [e1]; exact ha) (fun hh => hn (by simp [hh]))]
          simp
        · have h1 : (s.step dbg (.run j)).conns[i]? = some t := by
            rw [e1]; simp [h, hij]
          obtain ⟨n, a, b⟩ := foldl_conn i evs _ _ h1
          refine ⟨n, a, fun _ hn => ?_⟩
          rw [b (by rw [e1]; exact ha) (fun hh => hn (by simp [hh]))]
          rw [List.count_cons_of_ne (by simpa using hij)]
      · have e1 : s.step dbg (.run j) = s := by simp [ConnServer.step, ha]
        obtain ⟨n, a, _⟩ := foldl_conn i evs (s.step dbg (.run j)) t (by rw [e1]; exact h)
        exact ⟨n, a, fun hh => absurd hh ha⟩

theorem runConns_alive {evs : List ConnEvent} (h : ConnEvent.acceptFails ∉ evs) :
    (runConns dbg evs).alive = true ∧ (runConns dbg evs).conns.length = connections evs := by
  have key : ∀ (evs : List ConnEvent) (s : ConnServer), s.alive = true → ConnEvent.acceptFails ∉ evs →
      (evs.foldl (ConnServer.step dbg) s).alive = true ∧ (evs.foldl (ConnServer.step dbg) s).conns.length = s.conns.length + connections evs := by
    intro evs
    induction evs with
    | nil => intro s h _; exact ⟨h, by simp [connections]⟩
    | cons e evs ih =>
      intro s h hn
      have hn' : ConnEvent.acceptFails ∉ evs := fun hh => hn (by simp [hh])
      cases e with
      | accept c r w =>
        obtain ⟨a, b⟩ := ih (s.step dbg (.accept c r w)) (by simp [ConnServer.step, h]) hn'
        refine ⟨a, b.trans ?_⟩
        simp [ConnServer.step, h, connections]
        omega
      | acceptFails => exact absurd (by simp) hn
      | run j =>
        obtain ⟨a, b⟩ := ih (s.step dbg (.run j)) (by simp [ConnServer.step, h]) hn'
        refine ⟨a, b.trans ?_⟩
        simp [ConnServer.step, h, connections]
  have := key evs ⟨true, []⟩ rfl h
  simpa [runConns] using this

/-! ### Runs that never end -/

theorem firstEvents_split (σ : Nat → ConnEvent) {k m : Nat} (h : k < m) :
    firstEvents σ m = firstEvents σ k ++ σ k :: (List.range' (k + 1) (m - (k + 1))).map σ := by
  unfold firstEvents
  obtain ⟨d, rfl⟩ := Nat.exists_eq_add_of_lt h
  have e : k + d + 1 - (k + 1) = d := by omega
  have h1 : List.range (k + d + 1) = List.range k ++ List.range' k (d + 1) := by
    have := List.range'_append_1 (s := 0) (m := k) (n := d + 1)
    rw [Nat.zero_add] at this
    rw [List.range_eq_range', List.range_eq_range', this]
    rfl
  rw [e, h1, List.map_append, List.range'_succ, List.map_cons]

theorem fair_count {σ : Nat → ConnEvent} {i : Nat} (h : Fair σ i) (a b : Nat) :
    ∃ d, ∀ d', d ≤ d' → b ≤ ((List.range' a d').map σ).count (.run i) := by
  have mono : ∀ d e, ((List.range' a d).map σ).count (.run i) ≤ ((List.range' a (d + e)).map σ).count (.run i) := by
    intro d e
    rw [← List.range'_append_1 (s := a) (m := d) (n := e), List.map_append, List.count_append]
    omega
  induction b with
  | zero => exact ⟨0, fun _ _ => Nat.zero_le _⟩
  | succ b ih =>
    obtain ⟨d, hd⟩ := ih
    obtain ⟨m, hm, hs⟩ := h (a + d)
    refine ⟨m - a + 1, fun d' hd' => ?_⟩
    obtain ⟨e, rfl⟩ := Nat.exists_eq_add_of_le hd'
    refine Nat.le_trans ?_ (mono (m - a + 1) e)
    rw [← List.range'_append_1 (s := a) (m := m - a) (n := 1), List.map_append, List.count_append]
    have h1 := hd (m - a) (by omega)
    have h2 : a + (m - a) = m := by omega
    rw [h2]
    simp only [List.range'_one, List.map_cons, List.map_nil, hs, List.count_singleton_self]
    omega

end Dnssec
