import Verif.Spec.Duplex
import Verif.Proofs.Builder
import Verif.Proofs.Ticks

/-! # Lemmas about the TCP driver and a resolver (C110) -/

namespace Dnssec

open Spec ProofBuilder

variable {dbg : Bool} {name : Name} {ty : UInt16}

/-- All messages of a list, as they are on the connection. -/
def frames (ms : List Bytes) : Bytes := (ms.map frame).flatten

theorem frames_nil : frames [] = [] := rfl
theorem frames_cons (m : Bytes) (ms : List Bytes) : frames (m :: ms) = frame m ++ frames ms := rfl
theorem frames_append (a b : List Bytes) : frames (a ++ b) = frames a ++ frames b := by simp [frames]
theorem frames_one (m : Bytes) : frames [m] = frame m := by simp [frames]

theorem ofBe16_toNat (a b : UInt8) : (ofBe16 a b).toNat = a.toNat * 256 + b.toNat := by
  have ha := a.toNat_lt
  have hb := b.toNat_lt
  unfold ofBe16
  rw [UInt16.toNat_ofNat']
  omega

theorem frame_of_length {a b : UInt8} {m : Bytes} (h : m.length = (ofBe16 a b).toNat) : a :: b :: m = frame m ∧ m.length ≤ 65535 := by
  rw [ofBe16_toNat] at h
  have ha := a.toNat_lt
  have hb := b.toNat_lt
  unfold frame
  rw [h]
  have h1 : UInt8.ofNat ((a.toNat * 256 + b.toNat) / 256) = a := by
    rw [← UInt8.toNat_inj, UInt8.toNat_ofNat']; omega
  have h2 : UInt8.ofNat ((a.toNat * 256 + b.toNat) % 256) = b := by
    rw [← UInt8.toNat_inj, UInt8.toNat_ofNat']; omega
  rw [h1, h2]
  exact ⟨rfl, by omega⟩

theorem ofBe16_frame {m : Bytes} (h : m.length ≤ 65535) :
    (ofBe16 (UInt8.ofNat (m.length / 256)) (UInt8.ofNat (m.length % 256))).toNat = m.length := by
  rw [ofBe16_toNat, UInt8.toNat_ofNat', UInt8.toNat_ofNat']
  omega

theorem stillToRead_frame {m rest : Bytes} (h : m.length ≤ 65535) : stillToRead (frame m ++ rest) = 0 := by
  simp only [frame, List.cons_append, stillToRead]
  rw [ofBe16_frame h]
  simp

theorem frame_append_inj {m m' x y : Bytes} (h : m.length ≤ 65535) (h' : m'.length ≤ 65535) (e : frame m ++ x = frame m' ++ y) : m = m' ∧ x = y := by
  simp only [frame, List.cons_append, List.cons.injEq] at e
  obtain ⟨e1, e2, e3⟩ := e
  have hl : m.length = m'.length := by
    rw [← ofBe16_frame h, ← ofBe16_frame h', e1, e2]
  exact List.append_inj e3 hl

theorem frames_prefix {rest : Bytes} : ∀ {a b : List Bytes}, (∀ m ∈ a, m.length ≤ 65535) → (∀ m ∈ b, m.length ≤ 65535) → frames a ++ rest = frames b →
    ∃ c, b = a ++ c ∧ rest = frames c
  | [], b, _, _, e => ⟨b, rfl, by simpa [frames_nil] using e⟩
  | m :: a, [], _, _, e => by simp [frames_cons, frames_nil, frame] at e
  | m :: a, m' :: b, ha, hb, e => by
    rw [frames_cons, frames_cons, List.append_assoc] at e
    obtain ⟨rfl, e'⟩ := frame_append_inj (ha m (by simp)) (hb m' (by simp)) e
    obtain ⟨c, rfl, hc⟩ := frames_prefix (a := a) (b := b) (fun x hx => ha x (by simp [hx])) (fun x hx => hb x (by simp [hx])) e'
    exact ⟨c, rfl, hc⟩

/-- A message that is incomplete is not a sequence of messages, unless nothing of it is there. -/
theorem incomplete_frames {got : Bytes} (h : stillToRead got ≠ 0) {c : List Bytes} (hc : ∀ m ∈ c, m.length ≤ 65535) (e : got = frames c) : c = [] := by
  cases c with
  | nil => rfl
  | cons m c =>
    rw [e, frames_cons] at h
    exact absurd (stillToRead_frame (hc m (by simp))) h

/-- Reading on until nothing is missing gives a whole message. -/
theorem complete_frame {got chunk : Bytes} (h : stillToRead got ≠ 0) (hl : chunk.length ≤ stillToRead got) (h0 : stillToRead (got ++ chunk) = 0) :
    got ++ chunk = frame ((got ++ chunk).drop 2) ∧ ((got ++ chunk).drop 2).length ≤ 65535 := by
  have key : ∀ (a b : UInt8) (body : Bytes), got ++ chunk = a :: b :: body → body.length ≤ (ofBe16 a b).toNat →
      got ++ chunk = frame ((got ++ chunk).drop 2) ∧ ((got ++ chunk).drop 2).length ≤ 65535 := by
    intro a b body e hb
    rw [e] at h0 ⊢
    simp only [stillToRead] at h0
    exact frame_of_length (a := a) (b := b) (m := body) (by omega)
  match got, chunk with
  | [], [] => simp [stillToRead] at h0
  | [], [_] => simp [stillToRead] at h0
  | [], [a, b] => exact key a b [] rfl (by simp)
  | [], _ :: _ :: _ :: _ => simp [stillToRead] at hl
  | [_], [] => simp [stillToRead] at h0
  | [a], [b] => exact key a b [] rfl (by simp)
  | [_], _ :: _ :: _ => simp [stillToRead] at hl
  | a :: b :: body, chunk =>
    simp only [stillToRead] at hl h
    exact key a b (body ++ chunk) rfl (by rw [List.length_append]; omega)

theorem sentFor_frame {q : Bytes} (h : q.length ≤ 65535) : sentFor q = frame q := (frame_eq q h).symm

theorem sentFor_frames {qs : List Bytes} (h : ∀ q ∈ qs, q.length ≤ 65535) : (qs.map sentFor).flatten = frames qs := by
  unfold frames
  congr 1
  exact List.map_congr_left fun q hq => sentFor_frame (h q hq)

namespace TcpDriver

/-- What is still to be written. -/
def left : TcpDriver → Bytes
  | .sending _ l => l
  | _ => []

/-- What has been read of a message. -/
def got : TcpDriver → Bytes
  | .reading _ g => g
  | _ => []

end TcpDriver

/-- What the driver has done, and is going to. -/
def DriverOk (dbg : Bool) (name : Name) (ty : UInt16) (acc qs : List Bytes) : TcpDriver → Prop
  | .sending b l => Run dbg name ty acc [] qs b ∧ b.made ≤ 10 ∧ l ≠ []
  | .reading b g => Run dbg name ty acc [] qs b ∧ b.awaiting = true ∧ stillToRead g ≠ 0
  | .returned r => ∀ (rest sent : Bytes) (w : Nat), ∃ k, buildProof dbg 10 ⟨frames acc ++ rest, 20 + w, sent⟩ name ty = some (⟨rest, k, sent ++ frames qs⟩, r)

theorem awaiting_made {b : ProofBuilder} (h : b.awaiting = true) : b.made ≤ 10 ∧ 0 < b.pending := by
  simp only [awaiting, maxRequests, Bool.and_eq_true, decide_eq_true_eq] at h
  omega

theorem run_at_most_ten {acc rej qs : List Bytes} {b : ProofBuilder} (h : Run dbg name ty acc rej qs b) : qs.length ≤ 10 := by
  obtain ⟨_, _, _, _, h⟩ := (run_inv h).queries
  exact h

theorem run_awaits {acc rej qs : List Bytes} {b : ProofBuilder} (h : Run dbg name ty acc rej qs b) (ha : b.awaiting = true) :
    acc.length < qs.length ∧ acc.length < 10 := by
  have inv := run_inv h
  have hp := inv.pending
  have hm := inv.made
  obtain ⟨h1, h2⟩ := awaiting_made ha
  obtain ⟨ks, _, e, e', hl⟩ := inv.queries
  have := e' h1
  subst this
  have hc : (b.requested.flatMap asks).length = cost b.requested := by
    unfold cost asks
    simp
  rw [e, List.length_cons, hc]
  omega

theorem driveLoop_stops {b : ProofBuilder} (ha : ¬ b.awaiting = true) (fuel : Nat) (s : Stream) :
    driveLoop dbg fuel b s = some (s, match b.finish with
      | some r => .ok r
      | none => .err ()) := by
  cases hf : b.finish <;> cases fuel <;> (rw [driveLoop, if_neg ha, hf])

/-- The driver at the head of its loop. -/
theorem driverOk_loopHead (hn : Obtainable name) {acc qs : List Bytes} {b : ProofBuilder} (h : Run dbg name ty acc [] qs b) (hm : b.made ≤ 10)
    (hacc : ∀ m ∈ acc, m.length ≤ 65535) : DriverOk dbg name ty acc qs (TcpDriver.loopHead b) := by
  unfold TcpDriver.loopHead
  by_cases ha : b.awaiting = true
  · rw [if_pos ha]
    exact ⟨h, ha, by simp [stillToRead]⟩
  · rw [if_neg ha]
    intro rest sent w
    have hp := (run_inv h).pending
    have h10 := run_at_most_ten h
    have := buildProof_follows hn h rfl hacc hm (10 - acc.length) (20 - 2 * qs.length + w) rest sent
    rw [show acc.length + (10 - acc.length) = 10 by omega, show 2 * qs.length + (20 - 2 * qs.length + w) = 20 + w by omega] at this
    rw [show frames acc = (acc.map frame).flatten from rfl, this]
    exact ⟨_, driveLoop_stops ha _ _⟩

theorem driverOk_send (hn : Obtainable name) {acc qs : List Bytes} {b : ProofBuilder} {out : Bytes} (h : Run dbg name ty acc [] qs b) (hm : b.made ≤ 10)
    (hacc : ∀ m ∈ acc, m.length ≤ 65535) : DriverOk dbg name ty acc qs (TcpDriver.send b out) := by
  unfold TcpDriver.send
  cases out with
  | nil => exact driverOk_loopHead hn h hm hacc
  | cons c out => exact ⟨h, hm, by simp⟩

theorem send_left (b : ProofBuilder) (out : Bytes) : (TcpDriver.send b out).left = out := by
  unfold TcpDriver.send
  cases out with
  | nil =>
    simp only [List.isEmpty_nil, ite_true, TcpDriver.loopHead]
    split <;> rfl
  | cons c out => rfl

theorem send_got (b : ProofBuilder) (out : Bytes) : (TcpDriver.send b out).got = [] := by
  unfold TcpDriver.send
  cases out with
  | nil =>
    simp only [List.isEmpty_nil, ite_true, TcpDriver.loopHead]
    split <;> rfl
  | cons c out => rfl

/-- The driver after a whole message. -/
theorem driverOk_message (hn : Obtainable name) {acc qs : List Bytes} {b : ProofBuilder} {m : Bytes} (h : Run dbg name ty acc [] qs b) (ha : b.awaiting = true)
    (hacc : ∀ m ∈ acc, m.length ≤ 65535) (hl : m.length ≤ 65535) :
    ∃ more, DriverOk dbg name ty (acc ++ [m]) (qs ++ more) (TcpDriver.message dbg b m) ∧ (TcpDriver.message dbg b m).left = frames more ∧
      (TcpDriver.message dbg b m).got = [] ∧
      (qs ++ more).length ≤ 10 ∧ ∀ q ∈ qs ++ more, q.length ≤ 283 := by
  have hq := run_query_length hn h
  have h10 := run_at_most_ten h
  have hacc' := (run_awaits h ha).2
  have follows := fun (rest sent : Bytes) (w : Nat) =>
    buildProof_follows hn h rfl hacc (awaiting_made ha).1 (10 - acc.length - 1 + 1) (20 - 2 * qs.length + w) (frame m ++ rest) sent
  have fin : ∀ (r : Res Unit (Bytes × UInt32)),
      (∀ (s : Stream) fuel, driveLoop dbg (fuel + 1) b ⟨frame m ++ s.incoming, s.writesLeft, s.sent⟩ = some (s, r)) →
      DriverOk dbg name ty (acc ++ [m]) (qs ++ []) (.returned r) := by
    intro r hd rest sent w
    have hs := hd ⟨rest, 20 - 2 * qs.length + w, sent ++ (qs.map frame).flatten⟩ (10 - acc.length - 1)
    have := follows rest sent w
    rw [hs, show acc.length + (10 - acc.length - 1 + 1) = 10 by omega, show 2 * qs.length + (20 - 2 * qs.length + w) = 20 + w by omega] at this
    rw [frames_append, frames_one, List.append_assoc, List.append_nil]
    exact ⟨_, this⟩
  unfold TcpDriver.message
  match e : b.processResponse dbg m with
  | (b', .err ()) =>
    refine ⟨[], fin _ fun s fuel => ?_, rfl, rfl, by simpa using h10, by simpa using hq⟩
    rw [driveLoop, if_pos ha, readResponse_frame _ _ _ _ hl]
    simp only [e]
  | (b', .panic) =>
    refine ⟨[], fin _ fun s fuel => ?_, rfl, rfl, by simpa using h10, by simpa using hq⟩
    rw [driveLoop, if_pos ha, readResponse_frame _ _ _ _ hl]
    simp only [e]
  | (b', .ok more) =>
    have hrun := Run.accept h e
    have hq' := run_query_length hn hrun
    have hlen : ∀ q ∈ more, q.length ≤ 65535 := fun q hq => Nat.le_trans (hq' q (by simp [hq])) (by decide)
    simp only
    rw [sentFor_frames hlen]
    have hacc2 : ∀ x ∈ acc ++ [m], x.length ≤ 65535 := by
      intro x hx
      rcases List.mem_append.mp hx with hx | hx
      · exact hacc x hx
      · rw [List.mem_singleton.mp hx]; exact hl
    by_cases hm : b'.made ≤ 10
    · exact ⟨more, driverOk_send hn hrun hm hacc2, send_left _ _, send_got _ _, run_at_most_ten hrun, hq'⟩
    · have hmore : more = [] := by
        unfold processResponse at e
        rw [if_neg (by have := (awaiting_made ha).2; omega)] at e
        split at e
        · simp at e
        · simp at e
        · simp only [maxRequests] at e
          split at e
          · rename_i hc
            simp only [Prod.mk.injEq] at e
            rw [e.1] at hc
            omega
          · simp only [Prod.mk.injEq, Res.ok.injEq] at e
            exact e.2.symm
      subst hmore
      have hna : ¬ b'.awaiting = true := fun hc => hm (awaiting_made hc).1
      have hf : b'.finish = none := by
        unfold finish
        rw [if_pos (Or.inr (by simp only [maxRequests]; omega))]
      refine ⟨[], ?_, send_left _ _, send_got _ _, run_at_most_ten hrun, hq'⟩
      simp only [frames_nil, TcpDriver.send, List.isEmpty_nil, ite_true, TcpDriver.loopHead, if_neg hna, hf]
      refine fin _ fun s fuel => ?_
      rw [driveLoop, if_pos ha, readResponse_frame _ _ _ _ hl]
      simp only [e, sendAll]
      have := driveLoop_stops (dbg := dbg) hna fuel s
      rw [hf] at this
      exact this

/-- What holds after `n` steps. -/
structure ExInv (dbg : Bool) (name : Name) (ty : UInt16) (n : Nat) (x : Exchange) (acc qs : List Bytes) : Prop where
  driver : DriverOk dbg name ty acc qs x.driver
  out : frames x.queries ++ (x.partialQuery ++ (x.toResolver ++ x.driver.left)) = frames qs
  inp : frames acc ++ (x.driver.got ++ (x.toDriver ++ x.toWrite)) = frames x.answers
  count : x.answers.length + x.owed.length = x.queries.length
  ten : qs.length ≤ 10
  short : ∀ q ∈ qs, q.length ≤ 283
  accShort : ∀ m ∈ acc, m.length ≤ 65535
  seenShort : ∀ m ∈ x.queries, m.length ≤ 65535
  answersShort : ∀ m ∈ x.answers, m.length ≤ 65535
  incomplete : stillToRead x.partialQuery ≠ 0
  steps : n ≤ (frames x.queries ++ (x.partialQuery ++ x.toResolver)).length + (frames x.queries ++ x.partialQuery).length + x.answers.length +
    (frames acc ++ (x.driver.got ++ x.toDriver)).length + (frames acc ++ x.driver.got).length

theorem exInv_step {roomR roomD n : Nat} {x y : Exchange} {a : Actor} {acc qs : List Bytes} (hn : Obtainable name) (h : ExInv dbg name ty n x acc qs)
    (hs : Step dbg roomR roomD a x y) : ∃ acc' qs', ExInv dbg name ty (n + 1) y acc' qs' := by
  have hd := h.driver
  have ho := h.out
  have hi := h.inp
  have hst := h.steps
  simp only [List.length_append] at hst
  cases hs with
  | driverWrites hx hk hl _ =>
    rename_i b left k
    rw [hx] at hd ho hi hst
    refine ⟨acc, qs, ?_, ?_, ?_, h.count, h.ten, h.short, h.accShort, h.seenShort, h.answersShort, h.incomplete, ?_⟩
    · simp only [hx, TcpDriver.wrote]
      exact driverOk_send hn hd.1 hd.2.1 h.accShort
    · simp only [hx, TcpDriver.wrote, send_left]
      rw [← ho]
      simp [TcpDriver.left]
    · simp only [hx, TcpDriver.wrote, send_got]
      exact hi
    · simp only [hx, TcpDriver.wrote, send_got, List.length_append, List.length_take]
      simp only [TcpDriver.got] at hst
      simp only [List.length_nil] at hst ⊢
      omega
  | driverReads hx ht hne hl =>
    rename_i b got chunk rest
    rw [hx] at hd ho hi hst
    rw [ht] at hi hst
    have hpos : 0 < chunk.length := List.length_pos_iff.mpr hne
    by_cases h0 : stillToRead (got ++ chunk) = 0
    · obtain ⟨e1, e2⟩ := complete_frame hd.2.2 hl h0
      obtain ⟨more, d1, d2, d3, d4, d5⟩ := driverOk_message hn hd.1 hd.2.1 h.accShort e2
      refine ⟨acc ++ [(got ++ chunk).drop 2], qs ++ more, ?_, ?_, ?_, h.count, d4, d5, ?_, h.seenShort, h.answersShort, h.incomplete, ?_⟩
      · simp only [hx, TcpDriver.received, if_pos h0]
        exact d1
      · simp only [hx, TcpDriver.received, if_pos h0]
        rw [d2, frames_append, ← ho]
        simp [TcpDriver.left]
      · simp only [hx, TcpDriver.received, if_pos h0]
        rw [d3, frames_append, frames_one, ← e1, ← hi]
        simp [TcpDriver.got]
      · intro m hm
        rcases List.mem_append.mp hm with hm | hm
        · exact h.accShort m hm
        · rw [List.mem_singleton.mp hm]; exact e2
      · simp only [hx, TcpDriver.received, if_pos h0]
        rw [d3, frames_append, frames_one, ← e1]
        simp only [TcpDriver.got, List.length_append, List.length_nil] at hst ⊢
        omega
    · refine ⟨acc, qs, ?_, ?_, ?_, h.count, h.ten, h.short, h.accShort, h.seenShort, h.answersShort, h.incomplete, ?_⟩
      · simp only [hx, TcpDriver.received, if_neg h0]
        exact ⟨hd.1, hd.2.1, h0⟩
      · simp only [hx, TcpDriver.received, if_neg h0]
        exact ho
      · simp only [hx, TcpDriver.received, if_neg h0]
        rw [← hi]
        simp [TcpDriver.got]
      · simp only [hx, TcpDriver.received, if_neg h0]
        simp only [TcpDriver.got, List.length_append] at hst ⊢
        omega
  | resolverReads ht hne hl h0 =>
    rename_i chunk rest
    rw [ht] at ho hst
    have hpos : 0 < chunk.length := List.length_pos_iff.mpr hne
    refine ⟨acc, qs, hd, ?_, hi, h.count, h.ten, h.short, h.accShort, h.seenShort, h.answersShort, h0, ?_⟩
    · rw [← ho]; simp
    · simp only [List.length_append] at hst ⊢
      omega
  | resolverReadsLast ht hne hl h0 =>
    rename_i chunk rest q
    rw [ht] at ho hst
    have hpos : 0 < chunk.length := List.length_pos_iff.mpr hne
    refine ⟨acc, qs, hd, ?_, hi, ?_, h.ten, h.short, h.accShort, ?_, h.answersShort, by simp [stillToRead], ?_⟩
    · rw [← ho, frames_append, frames_one, ← h0]; simp
    · have := h.count
      simp only [List.length_append, List.length_cons, List.length_nil]
      omega
    · intro m hm
      rcases List.mem_append.mp hm with hm | hm
      · exact h.seenShort m hm
      · rw [List.mem_singleton.mp hm]; exact hl
    · have e : (frames (x.queries ++ [q])).length = (frames x.queries).length + (x.partialQuery.length + chunk.length) := by
        rw [frames_append, frames_one, ← h0]; simp
      simp only [List.length_append, e, List.length_nil] at hst ⊢
      omega
  | resolverAnswers ht hl =>
    rename_i before after q response
    refine ⟨acc, qs, hd, ho, ?_, ?_, h.ten, h.short, h.accShort, h.seenShort, ?_, h.incomplete, ?_⟩
    · rw [frames_append, frames_one, ← hi]; simp
    · have := h.count
      rw [ht] at this
      simp only [List.length_append, List.length_cons, List.length_nil] at this ⊢
      omega
    · intro m hm
      rcases List.mem_append.mp hm with hm | hm
      · exact h.answersShort m hm
      · rw [List.mem_singleton.mp hm]; exact hl
    · simp only [List.length_append, List.length_cons, List.length_nil] at hst ⊢
      omega
  | resolverWrites ht hne hroom =>
    rename_i chunk rest
    rw [ht] at hi
    have hpos : 0 < chunk.length := List.length_pos_iff.mpr hne
    refine ⟨acc, qs, hd, ho, ?_, h.count, h.ten, h.short, h.accShort, h.seenShort, h.answersShort, h.incomplete, ?_⟩
    · rw [← hi]; simp
    · simp only [List.length_append] at hst ⊢
      omega

theorem exInv {roomR roomD n : Nat} {x : Exchange} (hn : Obtainable name) (h : Reaches dbg roomR roomD name ty n x) :
    ∃ acc qs, ExInv dbg name ty n x acc qs := by
  induction h with
  | start =>
    have hq : (queryBytes name ty).length ≤ 283 := queryBytes_length _ _ hn.short
    have hlen : (queryBytes name ty).length ≤ 65535 := Nat.le_trans hq (by decide)
    refine ⟨[], [queryBytes name ty], ?_, ?_, ?_, rfl, by simp, ?_, by simp, by simp [Exchange.start], by simp [Exchange.start], by simp [Exchange.start, stillToRead], by omega⟩
    · have hr : Run dbg name ty [] [] [queryBytes name ty] (ProofBuilder.new name ty).1 := .new
      simp only [Exchange.start, TcpDriver.start]
      exact driverOk_send hn hr (by simp [ProofBuilder.new]) (by simp)
    · simp only [Exchange.start, TcpDriver.start, send_left, frames_one, frames_nil, List.nil_append]
      exact sentFor_frame hlen
    · simp [Exchange.start, TcpDriver.start, send_got, frames_nil]
    · intro q hq'
      rw [List.mem_singleton.mp hq']
      exact hq
  | step _ hs ih =>
    obtain ⟨acc, qs, h⟩ := ih
    exact exInv_step hn h hs

end Dnssec
