import Verif.Spec.Write

/-! # Writing to a socket -/

namespace Dnssec

open Spec

theorem writeAll_nil (es : List WriteEvent) : writeAll [] es = ([], es, true) := by
  cases es <;> rfl

theorem writeAll_prefix (es : List WriteEvent) : ∀ buf : Bytes, (writeAll buf es).1 <+: buf := by
  induction es with
  | nil => intro buf; simp [writeAll]
  | cons e es ih =>
    intro buf
    unfold writeAll
    split
    · simp
    · match e with
      | .fails => simp
      | .takes 0 => simp
      | .takes (n + 1) =>
        obtain ⟨t, ht⟩ := ih (buf.drop (n + 1))
        refine ⟨t, ?_⟩
        simp only [List.append_assoc, ht, List.take_append_drop]

/-- If `write_all` succeeds, everything was written. -/
theorem writeAll_ok (es : List WriteEvent) : ∀ buf : Bytes, (writeAll buf es).2.2 = true → (writeAll buf es).1 = buf := by
  induction es with
  | nil => intro buf h; simp [writeAll] at h ⊢; exact h
  | cons e es ih =>
    intro buf
    unfold writeAll
    split
    · rename_i he; intro _; simpa using he
    · match e with
      | .fails => simp
      | .takes 0 => simp
      | .takes (n + 1) =>
        intro h
        simp only [ih _ h, List.take_append_drop]

/-- No write takes anything. -/
def Dead (es : List WriteEvent) : Prop := ∀ e ∈ es, TakesNothing e

theorem writeAll_dead {es : List WriteEvent} (h : Dead es) (buf : Bytes) : (writeAll buf es).1 = [] ∧ Dead (writeAll buf es).2.1 := by
  cases es with
  | nil => exact ⟨rfl, h⟩
  | cons e es =>
    unfold writeAll
    split
    · exact ⟨rfl, h⟩
    · have ht : Dead es := fun x hx => h x (by simp [hx])
      rcases h e (by simp) with rfl | rfl <;> exact ⟨rfl, ht⟩

theorem writeEach_dead (bufs : List Bytes) : ∀ {es : List WriteEvent}, Dead es → writeEach bufs es = [] := by
  induction bufs with
  | nil => intro es _; rfl
  | cons b bs ih =>
    intro es h
    obtain ⟨h1, h2⟩ := writeAll_dead h b
    simp only [writeEach, h1, ih h2, List.append_nil]

theorem Spec.Permanent.tail {e : WriteEvent} {es : List WriteEvent} (h : Permanent (e :: es)) : Permanent es :=
  fun before x after hx => h (e :: before) x after (by rw [hx]; rfl)

theorem writeAll_permanent (es : List WriteEvent) : ∀ buf : Bytes, Permanent es →
    Permanent (writeAll buf es).2.1 ∧ ((writeAll buf es).2.2 = false → Dead (writeAll buf es).2.1) := by
  induction es with
  | nil => intro buf h; exact ⟨h, fun _ => by intro x hx; simp [writeAll] at hx⟩
  | cons e es ih =>
    intro buf h
    unfold writeAll
    split
    · exact ⟨h, by simp⟩
    · match e, h with
      | .fails, h => exact ⟨h.tail, fun _ => h [] _ es rfl (Or.inl rfl)⟩
      | .takes 0, h => exact ⟨h.tail, fun _ => h [] _ es rfl (Or.inr rfl)⟩
      | .takes (n + 1), h => exact ih _ h.tail

theorem writeEach_prefix (bufs : List Bytes) : ∀ {es : List WriteEvent}, Permanent es → writeEach bufs es <+: bufs.flatten := by
  induction bufs with
  | nil => intro es _; simp [writeEach]
  | cons b bs ih =>
    intro es h
    obtain ⟨h1, h2⟩ := writeAll_permanent es b h
    simp only [writeEach, List.flatten_cons]
    cases hok : (writeAll b es).2.2 with
    | true =>
      rw [writeAll_ok es b hok, List.prefix_append_right_inj]
      exact ih h1
    | false =>
      rw [writeEach_dead bs (h2 hok), List.append_nil]
      exact (writeAll_prefix es b).trans (List.prefix_append _ _)

theorem writeAll_live (es : List WriteEvent) : ∀ (buf : Bytes) (n : Nat), Live (buf.length + n) es →
    (writeAll buf es).2.2 = true ∧ Live n (writeAll buf es).2.1 := by
  induction es with
  | nil =>
    rintro buf n ⟨_, h⟩
    simp only [List.length_nil, Nat.le_zero_eq, Nat.add_eq_zero_iff, List.length_eq_zero_iff] at h
    obtain ⟨rfl, rfl⟩ := h
    exact ⟨rfl, by simp [Live, writeAll]⟩
  | cons e es ih =>
    rintro buf n ⟨h1, h2⟩
    unfold writeAll
    split
    · exact ⟨rfl, h1, by show n ≤ (e :: es).length; omega⟩
    · rename_i hne
      have hpos : 0 < buf.length := by
        cases buf with
        | nil => simp at hne
        | cons _ _ => simp
      match e, h1 with
      | .fails, h1 => exact absurd (Or.inl rfl) (h1 _ (by simp))
      | .takes 0, h1 => exact absurd (Or.inr rfl) (h1 _ (by simp))
      | .takes (k + 1), h1 =>
        apply ih
        refine ⟨fun e he => h1 e (by simp [he]), ?_⟩
        simp only [List.length_cons, List.length_drop] at h2 ⊢
        omega

theorem writeEach_live (bufs : List Bytes) : ∀ {es : List WriteEvent}, Live bufs.flatten.length es → writeEach bufs es = bufs.flatten := by
  induction bufs with
  | nil => intro es _; rfl
  | cons b bs ih =>
    intro es h
    rw [List.flatten_cons, List.length_append] at h
    obtain ⟨h1, h2⟩ := writeAll_live es b _ h
    simp only [writeEach, List.flatten_cons, writeAll_ok es b h1, ih h2]

theorem answerWrites_flatten (resolve : Name → UInt16 → Option (Bytes × UInt32)) (d : Decision) :
    ∃ asked, answer resolve d = .done asked (answerWrites resolve d).flatten := by
  cases d with
  | reject status msg => exact ⟨[], by simp [answer, answerWrites]⟩
  | lookup name ty =>
    refine ⟨[(name, ty)], ?_⟩
    simp only [answer, answerWrites]
    cases resolve name ty with
    | none => simp
    | some r => simp [httpProof, httpProofHead]

/-- What `deliver` does, given what `serve` does. -/
theorem deliver_spec (dbg : Bool) (resolve : Name → UInt16 → Option (Bytes × UInt32)) (evs : List SockEvent) :
    (serve dbg resolve evs = .panicked ∧ ∀ writes, deliver dbg resolve evs writes = none) ∨
    ∃ asked bufs, serve dbg resolve evs = .done asked bufs.flatten ∧ ∀ writes, deliver dbg resolve evs writes = some (writeEach bufs writes) := by
  unfold serve deliver
  cases readRequest [] evs with
  | closed => exact Or.inr ⟨[], [], rfl, fun _ => rfl⟩
  | tooLarge =>
    obtain ⟨asked, h⟩ := answerWrites_flatten resolve (.reject (ascii "400 Bad Request") (ascii "Request Too Large"))
    exact Or.inr ⟨asked, _, h, fun _ => rfl⟩
  | request buf =>
    simp only
    cases decideBuf dbg buf with
    | none => exact Or.inl ⟨rfl, fun _ => rfl⟩
    | some d =>
      obtain ⟨asked, h⟩ := answerWrites_flatten resolve d
      exact Or.inr ⟨asked, _, h, fun _ => rfl⟩

end Dnssec
