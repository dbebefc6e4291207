import Verif.Proofs.Leftover
import Verif.Props.Query

/-! # C44, C45, C46: exactly what is in the proof and the TTL, for every history -/

namespace Dnssec.Props

open Dnssec.Spec ProofBuilder

variable {dbg : Bool} {name : Name} {ty : UInt16}

/-- **C46.** Exactly when a response is rejected, and exactly what that changes: nothing but the proof, to which the records before the
place where the response cannot be read are appended. -/
theorem C46_rejected_iff {b b' : ProofBuilder} {resp : Bytes} : b.processResponse dbg resp = (b', .err ()) ↔
    b.pending = 0 ∧ b' = b ∨ 0 < b.pending ∧ ∃ recs, Leaves dbg resp recs ∧ b' = { b with proof := b.proof ++ encode recs } :=
  processResponse_err_iff

/-- A case of it: the truncated response. -/
example : ∃ recs, Leaves true exTruncated recs ∧ recs = [(exTxt, 1)] ∧
    (exBuilder.processResponse true exTruncated).1 = { exBuilder with proof := exBuilder.proof ++ encode recs } := by
  have e : readHeader exTruncated = .ok ((2, 0), writeRR exTxt 1 ++ [1, 97]) := by decide +kernel
  have p1 : parseWirePacketRR true exTruncated (writeRR exTxt 1 ++ [1, 97]) = .ok ((exTxt, 1), [1, 97]) := by decide +kernel
  have p2 : parseWirePacketRR true exTruncated [1, 97] = .err () := by decide +kernel
  have e3 : (exBuilder.processResponse true exTruncated).1 = { exBuilder with proof := exBuilder.proof ++ encode [(exTxt, 1)] } := by decide +kernel
  have g : GoodHeader exTruncated 2 0 (writeRR exTxt 1 ++ [1, 97]) := goodHeader_iff.mpr ⟨2, 0, e, rfl, rfl⟩
  exact ⟨_, .answer g (by omega) (.cons (parseWirePacketRR_iff.mp p1) (.nil _)) (unreadable_iff.mpr p2), rfl, e3⟩

/-- **C46.** Every response is exactly one of: acceptable, such that reading it panics, or rejected with one list of records left behind. -/
theorem C46_one_of_three (dbg : Bool) (resp : Bytes) :
    ((∃ recs, Contributes dbg resp recs) ∧ ¬ MessagePanics dbg resp ∧ ∀ recs, ¬ Leaves dbg resp recs) ∨
    ((∀ recs, ¬ Contributes dbg resp recs) ∧ MessagePanics dbg resp ∧ ∀ recs, ¬ Leaves dbg resp recs) ∨
    ((∀ recs, ¬ Contributes dbg resp recs) ∧ ¬ MessagePanics dbg resp ∧ ∃ recs, Leaves dbg resp recs ∧ ∀ recs', Leaves dbg resp recs' → recs' = recs) := by
  have hc : ∀ recs, Contributes dbg resp recs → ¬ MessagePanics dbg resp ∧ ∀ recs, ¬ Leaves dbg resp recs := by
    intro recs hc
    refine ⟨fun hm => ?_, fun r hl => leaves_not_contributes hl hc⟩
    obtain ⟨b', more, e⟩ := processResponse_accepts (b := exBuilder) (by decide) hc
    have := (processResponse_panic_iff (b := exBuilder)).mpr ⟨by decide, hm⟩
    rw [e] at this
    exact nomatch this
  by_cases h1 : ∃ recs, Contributes dbg resp recs
  · obtain ⟨recs, h1⟩ := h1
    exact Or.inl ⟨⟨recs, h1⟩, hc recs h1⟩
  · have h1' : ∀ recs, ¬ Contributes dbg resp recs := fun r hr => h1 ⟨r, hr⟩
    by_cases h2 : MessagePanics dbg resp
    · exact Or.inr (Or.inl ⟨h1', h2, fun r hl => leaves_not_panics hl h2⟩)
    · refine Or.inr (Or.inr ⟨h1', h2, ?_⟩)
      cases hr : exBuilder.processResponse dbg resp with
      | mk b' r =>
        cases r with
        | ok more =>
          obtain ⟨recs, _, _, _, h, _⟩ := processResponse_ok hr
          exact absurd h (h1' _)
        | panic => exact absurd ((processResponse_panic_iff).mp (by rw [hr])).2 h2
        | err e =>
          obtain ⟨hp, _⟩ | ⟨_, recs, hl, _⟩ := C46_rejected_iff.mp hr
          · exact absurd hp (by decide)
          · exact ⟨recs, hl, fun r' hr' => leaves_unique hr' hl⟩

/-- The records contributed by the accepted responses. -/
def fromAccepted (log : List (Bytes × Bool)) (recss : List (List (RR × UInt32))) : List (RR × UInt32) :=
  ((log.zip recss).filter fun e => e.1.2).flatMap fun e => e.2

theorem puts_length {log : List (Bytes × Bool)} {recss : List (List (RR × UInt32))} (h : Puts dbg log recss) : log.length = recss.length := by
  induction h <;> simp_all

theorem fromAccepted_snoc {log : List (Bytes × Bool)} {recss : List (List (RR × UInt32))} (h : Puts dbg log recss) (resp : Bytes) (ok : Bool)
    (recs : List (RR × UInt32)) : fromAccepted (log ++ [(resp, ok)]) (recss ++ [recs]) = fromAccepted log recss ++ if ok then recs else [] := by
  unfold fromAccepted
  rw [List.zip_append (puts_length h)]
  cases ok <;> simp

theorem min_isMin {a t : UInt32} {xs recs : List (RR × UInt32)} (hx : xs = [] ∧ a = 0xffffffff ∨ IsMinTtl a xs) (ht : IsMinTtl t recs) :
    IsMinTtl (min a t) (xs ++ recs) := by
  obtain ⟨t1, r, hr, e⟩ := ht
  have hm : (min a t = a ∧ a.toNat ≤ t.toNat) ∨ (min a t = t ∧ t.toNat ≤ a.toNat) := by
    have : min a t = if a ≤ t then a else t := rfl
    rw [this]
    split
    · rename_i h; exact Or.inl ⟨rfl, UInt32.le_iff_toNat_le.mp h⟩
    · rename_i h
      have := UInt32.lt_iff_toNat_lt.mp (UInt32.not_le.mp h)
      exact Or.inr ⟨rfl, by omega⟩
  have low : (min a t).toNat ≤ t.toNat ∧ (min a t).toNat ≤ a.toNat := by
    rcases hm with ⟨e, h⟩ | ⟨e, h⟩ <;> rw [e] <;> omega
  refine ⟨fun x hx' => ?_, ?_⟩
  · rcases List.mem_append.mp hx' with h | h
    · rcases hx with ⟨rfl, _⟩ | ⟨hx, _⟩
      · simp at h
      · have := hx x h; omega
    · have := t1 x h; omega
  · rcases hm with ⟨e', h⟩ | ⟨e', _⟩
    · rcases hx with ⟨rfl, rfl⟩ | ⟨_, y, hy, ey⟩
      · refine ⟨r, by simp [hr], ?_⟩
        rw [e', e]
        have := le_max32 t
        exact UInt32.toNat_inj.mp (by omega)
      · exact ⟨y, by simp [hy], by rw [e', ey]⟩
    · exact ⟨r, by simp [hr], by rw [e', e]⟩

theorem history_puts {log : List (Bytes × Bool)} {b : ProofBuilder} (h : History dbg name ty log b) :
    ∃ log' late recss, log = log' ++ late ∧ (∀ e ∈ late, e.2 = false) ∧ (late ≠ [] → b.pending = 0) ∧
      (b.pending = 0 → (∃ l r, log' = l ++ [(r, true)]) ∧ IsMinTtl b.minTtl (fromAccepted log' recss)) ∧ Puts dbg log' recss ∧ b.proof = encode recss.flatten ∧
      (fromAccepted log' recss = [] ∧ b.minTtl = 0xffffffff ∨ IsMinTtl b.minTtl (fromAccepted log' recss)) := by
  induction h with
  | new => exact ⟨[], [], [], rfl, by simp, by simp, by simp [ProofBuilder.new], .nil, rfl, Or.inl ⟨rfl, rfl⟩⟩
  | @accept log b b' resp more _ h ih =>
    obtain ⟨log', late, recss, h1, h2, h3, h4, h5, h6, h7⟩ := ih
    obtain ⟨recs, ttl, new, hp, hc, ht, _, _, _, rfl, _⟩ := processResponse_ok h
    have hl : late = [] := Classical.byContradiction fun hl => by have := h3 hl; omega
    subst hl
    have hm : IsMinTtl (min b.minTtl ttl) (fromAccepted (log' ++ [(resp, true)]) (recss ++ [recs])) := by
      rw [fromAccepted_snoc h5]
      exact min_isMin h7 ht
    refine ⟨log' ++ [(resp, true)], [], recss ++ [recs], by rw [h1]; simp, by simp, by simp, fun _ => ⟨⟨_, _, rfl⟩, hm⟩, .accepted h5 hc, ?_, Or.inr hm⟩
    simp only [h6]; simp [encode]
  | @reject log b b' resp _ h ih =>
    obtain ⟨log', late, recss, h1, h2, h3, h4, h5, h6, h7⟩ := ih
    obtain ⟨hp, rfl⟩ | ⟨hp, recs, hl, rfl⟩ := C46_rejected_iff.mp h
    · refine ⟨log', late ++ [(resp, false)], recss, by rw [h1]; simp, ?_, fun _ => hp, h4, h5, h6, h7⟩
      intro e he
      rcases List.mem_append.mp he with he | he
      · exact h2 e he
      · rw [List.mem_singleton.mp he]
    · have hl' : late = [] := Classical.byContradiction fun hl => by have := h3 hl; omega
      subst hl'
      refine ⟨log' ++ [(resp, false)], [], recss ++ [recs], by rw [h1]; simp, by simp, by simp, fun hp' => ?_, .rejected h5 hl, ?_, ?_⟩
      · simp only at hp'; omega
      · simp only [h6]; simp [encode]
      · rw [fromAccepted_snoc h5]
        simpa using h7

/-- **C44, C45.** For every history, exactly what `finish_proof` returns: of the responses up to the last one accepted, in the order in which
they came, what each accepted one contributes and each rejected one leaves behind; and the lowest TTL of the records of the accepted ones.
(Responses after that one are all rejected and change nothing.) -/
theorem C44_every_history {log : List (Bytes × Bool)} {b : ProofBuilder} (h : History dbg name ty log b) {proof : Bytes} {ttl : UInt32}
    (hf : b.finish = some (proof, ttl)) : ∃ before last late recss, log = before ++ [(last, true)] ++ late ∧ (∀ e ∈ late, e.2 = false) ∧
      Puts dbg (before ++ [(last, true)]) recss ∧ proof = encode recss.flatten ∧ IsMinTtl ttl (fromAccepted (before ++ [(last, true)]) recss) := by
  obtain ⟨log', late, recss, h1, h2, _, h4, h5, h6, h7⟩ := history_puts h
  unfold ProofBuilder.finish at hf
  split at hf
  · simp at hf
  · rename_i hn
    simp only [Option.some.injEq, Prod.mk.injEq] at hf
    obtain ⟨rfl, rfl⟩ := hf
    obtain ⟨⟨l, r, rfl⟩, hm⟩ := h4 (by omega)
    exact ⟨l, r, late, recss, h1, h2, h5, h6, hm⟩

/-- A case of it, with a rejected response: the history of `C45_fails_after_rejected`. -/
example : ∃ b, History true ⟨ascii "a.example.com."⟩ 16 [(exTruncated, false), (exResponse 0x81a0 1 (writeRR exTxt 300), true)] b ∧
    b.finish = some (writeRR exTxt 1 ++ writeRR exTxt 300, 300) :=
  ⟨⟨writeRR exTxt 1 ++ writeRR exTxt 300, 300, [], 0, 1⟩,
    .accept (log := [(exTruncated, false)]) (more := [])
      (.reject (log := []) .new (b' := ⟨writeRR exTxt 1, 0xffffffff, [], 1, 1⟩) (by decide +kernel)) (by decide +kernel),
    by decide +kernel⟩

end Dnssec.Props
