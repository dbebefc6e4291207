import Verif.Spec.Query
import Verif.Proofs.Wire
import Verif.Proofs.Stream
import Verif.Proofs.Reads

/-! # `handle_response` -/

namespace Dnssec

open Spec

/-! ### Flags -/

theorem testBit_mod (x i : Nat) : x.testBit i = decide (x / 2 ^ i % 2 = 1) := Nat.testBit_eq_decide_div_mod_eq

theorem and_zero_iff {x m : Nat} : x &&& m = 0 ↔ ∀ i, m.testBit i = true → x / 2 ^ i % 2 = 0 := by
  constructor
  · intro h i hi
    have := congrArg (fun y => Nat.testBit y i) h
    rw [Nat.testBit_and, hi, Bool.and_true, Nat.zero_testBit, testBit_mod] at this
    simp only [decide_eq_false_iff_not] at this
    omega
  · intro h
    refine Nat.eq_of_testBit_eq fun i => ?_
    rw [Nat.testBit_and, Nat.zero_testBit, testBit_mod x]
    cases hm : m.testBit i with
    | false => simp
    | true => simp [h i hm]

theorem and_pow_eq_zero (w : UInt16) (m : UInt16) (i : Nat) (hm : m.toNat = 2 ^ i) : w &&& m = 0 ↔ w.toNat / 2 ^ i % 2 = 0 := by
  rw [← UInt16.toNat_inj, UInt16.toNat_and, hm]
  have : (0 : UInt16).toNat = 0 := rfl
  rw [this, and_zero_iff]
  constructor
  · intro h; exact h i (by simp)
  · intro h j hj
    rw [Nat.testBit_two_pow] at hj
    have : i = j := by simpa using hj
    rw [← this]; exact h

theorem flags_mask (w : UInt16) : w &&& 0b0111101000000111 = 0 ↔
    w.toNat / 2048 % 16 = 0 ∧ w.toNat / 512 % 2 = 0 ∧ w.toNat % 8 = 0 := by
  rw [← UInt16.toNat_inj, UInt16.toNat_and]
  have e0 : (0 : UInt16).toNat = 0 := rfl
  have e1 : (0b0111101000000111 : UInt16).toNat = 0b0111101000000111 := rfl
  rw [e0, e1, and_zero_iff]
  constructor
  · intro b
    have b0 := b 0 (by decide); have b1 := b 1 (by decide); have b2 := b 2 (by decide); have b9 := b 9 (by decide)
    have b11 := b 11 (by decide); have b12 := b 12 (by decide); have b13 := b 13 (by decide); have b14 := b 14 (by decide)
    simp only [Nat.reducePow] at b0 b1 b2 b9 b11 b12 b13 b14
    omega
  · rintro ⟨h1, h2, h3⟩ i hi
    have hlt : i < 15 := by
      refine Nat.lt_of_not_le fun hc => ?_
      rw [Nat.testBit_lt_two_pow (Nat.lt_of_lt_of_le (by decide : 0b0111101000000111 < 2 ^ 15)
        (Nat.pow_le_pow_right (by omega) hc))] at hi
      simp at hi
    have : ∀ j, j < 15 → Nat.testBit 0b0111101000000111 j = true → j = 0 ∨ j = 1 ∨ j = 2 ∨ j = 9 ∨ j = 11 ∨ j = 12 ∨ j = 13 ∨ j = 14 := by
      decide
    rcases this i hlt hi with rfl | rfl | rfl | rfl | rfl | rfl | rfl | rfl <;> simp only [Nat.reducePow] <;> omega

/-- The three tests on the flag word. -/
theorem flags_iff (w : UInt16) :
    (¬ w &&& 0b1000000000000000 = 0 ∧ w &&& 0b0111101000000111 = 0 ∧ ¬ w &&& 0b100000 = 0) ↔
    ((flagsOf w).qr = true ∧ (flagsOf w).opcode = 0 ∧ (flagsOf w).tc = false ∧ (flagsOf w).ad = true ∧
      ((flagsOf w).rcode = 0 ∨ (flagsOf w).rcode = 8)) := by
  rw [flags_mask, and_pow_eq_zero w _ 15 rfl, and_pow_eq_zero w _ 5 rfl]
  simp only [flagsOf, decide_eq_true_eq, decide_eq_false_iff_not, Nat.reducePow]
  omega

/-! ### Header -/

theorem readU16_iff {inp : Bytes} {v : UInt16} {rest : Bytes} : readU16 inp = .ok (v, rest) ↔ inp = be16 v ++ rest :=
  ⟨readU16_rest, fun h => by rw [h, readU16_be16]⟩

theorem bindU16_ok {α : Type} {inp : Bytes} {f : UInt16 × Bytes → Res Unit α} {a : α} :
    (@Bind.bind (Res Unit) _ (UInt16 × Bytes) α (readU16 inp) f) = .ok a ↔ ∃ v rest, inp = be16 v ++ rest ∧ f (v, rest) = .ok a := by
  constructor
  · intro h
    cases hr : readU16 inp with
    | ok p =>
      obtain ⟨v, rest⟩ := p
      rw [hr] at h
      exact ⟨v, rest, readU16_rest hr, h⟩
    | err e => rw [hr] at h; simp at h
    | panic => rw [hr] at h; simp at h
  · rintro ⟨v, rest, rfl, h⟩
    rw [readU16_be16]; exact h

theorem ite_err_ok {α : Type} {c : Prop} [Decidable c] {x : Res Unit α} {a : α} :
    (if c then .err () else x) = .ok a ↔ ¬ c ∧ x = .ok a := by
  by_cases h : c <;> simp [h]

theorem readHeader_iff (resp : Bytes) (an ns : UInt16) (body : Bytes) :
    readHeader resp = .ok ((an, ns), body) ↔
      ∃ flags ar qname qtype qclass, IsMessage resp 0 flags 1 an ns ar qname qtype qclass body ∧
        (flagsOf flags).qr = true ∧ (flagsOf flags).opcode = 0 ∧ (flagsOf flags).tc = false ∧ (flagsOf flags).ad = true ∧
        ((flagsOf flags).rcode = 0 ∨ (flagsOf flags).rcode = 8) ∧ 1 ≤ an.toNat := by
  have han : ∀ x : UInt16, 1 ≤ x.toNat ↔ x ≠ 0 := by
    intro x
    rw [Ne, ← UInt16.toNat_inj]
    have : (0 : UInt16).toNat = 0 := rfl
    omega
  unfold readHeader
  constructor
  · intro h
    rw [bindU16_ok] at h; obtain ⟨id, r1, e1, h⟩ := h; simp only [ite_err_ok] at h; obtain ⟨c1, h⟩ := h
    rw [bindU16_ok] at h; obtain ⟨fl, r2, e2, h⟩ := h; simp only [ite_err_ok] at h; obtain ⟨c2, c3, c4, h⟩ := h
    rw [bindU16_ok] at h; obtain ⟨qd, r3, e3, h⟩ := h; simp only [ite_err_ok] at h; obtain ⟨c5, h⟩ := h
    rw [bindU16_ok] at h; obtain ⟨an', r4, e4, h⟩ := h; simp only [ite_err_ok] at h; obtain ⟨c6, h⟩ := h
    rw [bindU16_ok] at h; obtain ⟨ns', r5, e5, h⟩ := h; simp only at h
    rw [bindU16_ok] at h; obtain ⟨ar, r6, e6, h⟩ := h; simp only at h
    cases hr : readName resp r6 with
    | err e => rw [hr] at h; simp at h
    | panic => rw [hr] at h; simp at h
    | ok p =>
      obtain ⟨qn, r7⟩ := p
      rw [hr] at h
      simp only [Res.ok_bind] at h
      rw [bindU16_ok] at h; obtain ⟨qt, r8, e8, h⟩ := h; simp only at h
      rw [bindU16_ok] at h; obtain ⟨qc, r9, e9, h⟩ := h
      simp only [Res.pure_eq, Res.ok.injEq, Prod.mk.injEq] at h
      obtain ⟨⟨rfl, rfl⟩, rfl⟩ := h
      have c1 : id = 0 := by simpa using c1
      have c5 : qd = 1 := by simpa using c5
      subst c1 c5
      have hf := (flags_iff fl).mp ⟨c2, by simpa using c3, c4⟩
      refine ⟨fl, ar, qn, qt, qc, ⟨r6, by rw [e1, e2, e3, e4, e5, e6], readName_reads.mp (by rw [hr, e8, e9])⟩, hf.1, hf.2.1, hf.2.2.1, hf.2.2.2.1,
        hf.2.2.2.2, (han _).mpr c6⟩
  · rintro ⟨fl, ar, qn, qt, qc, ⟨r6, e, hr⟩, f1, f2, f3, f4, f5, hn⟩
    obtain ⟨g1, g2, g3⟩ := (flags_iff fl).mpr ⟨f1, f2, f3, f4, f5⟩
    rw [bindU16_ok]; refine ⟨_, _, e, ?_⟩; simp only [ite_err_ok]; refine ⟨by simp, ?_⟩
    rw [bindU16_ok]; refine ⟨_, _, rfl, ?_⟩; simp only [ite_err_ok]; refine ⟨g1, by simpa using g2, g3, ?_⟩
    rw [bindU16_ok]; refine ⟨_, _, rfl, ?_⟩; simp only [ite_err_ok]; refine ⟨by simp, ?_⟩
    rw [bindU16_ok]; refine ⟨_, _, rfl, ?_⟩; simp only [ite_err_ok]; refine ⟨(han _).mp hn, ?_⟩
    rw [bindU16_ok]; refine ⟨_, _, rfl, ?_⟩; simp only
    rw [bindU16_ok]; refine ⟨_, _, rfl, ?_⟩; simp only
    rw [readName_reads.mpr hr]; simp only [Res.ok_bind]
    rw [bindU16_ok]; refine ⟨_, _, rfl, ?_⟩; simp only
    rw [bindU16_ok]; exact ⟨_, _, rfl, rfl⟩

/-! ### Sections -/

theorem signers_cons (r : RR × UInt32) (rs : List (RR × UInt32)) : signers (r :: rs) = signers [r] ++ signers rs := by
  unfold signers
  rw [← List.filterMap_append]; rfl

theorem HState.add_names (st : HState) (rr : RR) (ttl : UInt32) : (st.add rr ttl).names = st.names ++ signers [(rr, ttl)] := by
  cases rr <;> simp [HState.add, signers]

/-- `st'` is `st` after adding the given records (whatever remains to be read). -/
structure Added (st : HState) (recs : List (RR × UInt32)) (st' : HState) : Prop where
  proof : st'.proof = st.proof ++ encode recs
  names : st'.names = st.names ++ signers recs
  minTtl : st'.minTtl = recs.foldl (fun t r => min t r.2) st.minTtl

theorem added_nil (st : HState) : Added st [] st := ⟨by simp [encode], by simp [signers], rfl⟩

theorem added_cons {st : HState} {rr : RR} {ttl : UInt32} {recs : List (RR × UInt32)} {st' : HState} {rd : Bytes} :
    Added ({ st with read := rd }.add rr ttl) recs st' ↔ Added st ((rr, ttl) :: recs) st' := by
  constructor
  · rintro ⟨h1, h2, h3⟩
    refine ⟨?_, ?_, h3⟩
    · rw [h1]; simp [HState.add, encode]
    · rw [h2, HState.add_names, signers_cons (rr, ttl) recs]; simp
  · rintro ⟨h1, h2, h3⟩
    refine ⟨?_, ?_, h3⟩
    · rw [h1]; simp [HState.add, encode]
    · rw [h2, HState.add_names, signers_cons (rr, ttl) recs]; simp

theorem added_setRead {st : HState} {recs : List (RR × UInt32)} {st' : HState} {rd : Bytes} :
    Added { st with read := rd } recs st' ↔ Added st recs st' := ⟨fun ⟨h1, h2, h3⟩ => ⟨h1, h2, h3⟩, fun ⟨h1, h2, h3⟩ => ⟨h1, h2, h3⟩⟩

variable {dbg : Bool} {resp : Bytes}

theorem answersLoop_ok {n : Nat} : ∀ {st st' : HState}, answersLoop dbg resp n st = (st', .ok ()) ↔
    ∃ recs, Records dbg resp n st.read recs st'.read ∧ Added st recs st' := by
  induction n with
  | zero =>
    intro st st'
    constructor
    · intro h
      simp only [answersLoop, Prod.mk.injEq, and_true] at h
      subst h
      exact ⟨[], .nil _, added_nil _⟩
    · rintro ⟨recs, h, e⟩
      generalize hr : st'.read = rd at h
      cases h with
      | nil =>
        obtain ⟨h1, h2, h3⟩ := e
        cases st'
        simp only [encode, signers, List.map_nil, List.flatten_nil, List.append_nil, List.filterMap_nil, List.foldl_nil] at *
        rw [answersLoop, hr, h1, h2, h3]
  | succ n ih =>
    intro st st'
    rw [answersLoop]
    cases hp : parseWirePacketRR dbg resp st.read with
    | err x =>
      simp only [Prod.mk.injEq, reduceCtorEq, and_false, false_iff, not_exists, not_and]
      intro recs h
      cases h with
      | cons h1 _ => rw [← parseWirePacketRR_iff, hp] at h1; simp at h1
    | panic =>
      simp only [Prod.mk.injEq, reduceCtorEq, and_false, false_iff, not_exists, not_and]
      intro recs h
      cases h with
      | cons h1 _ => rw [← parseWirePacketRR_iff, hp] at h1; simp at h1
    | ok p =>
      obtain ⟨⟨rr, ttl⟩, read⟩ := p
      simp only
      rw [ih]
      constructor
      · rintro ⟨recs, h1, h2⟩
        exact ⟨(rr, ttl) :: recs, .cons (parseWirePacketRR_iff.mp hp) h1, added_cons.mp h2⟩
      · rintro ⟨recs, h1, h2⟩
        cases h1 with
        | cons g1 g2 =>
          rw [← parseWirePacketRR_iff, hp] at g1
          simp only [Res.ok.injEq, Prod.mk.injEq] at g1
          obtain ⟨rfl, rfl⟩ := g1
          exact ⟨_, g2, added_cons.mpr h2⟩

theorem keepAuthority_eq (rr : RR) : keepAuthority rr = denialRecord rr := by
  cases rr with
  | rrsig s =>
    have e : ∀ a b : UInt16, (a == b) = decide (a.toNat = b.toNat) := by
      intro a b
      rw [Bool.eq_iff_iff, beq_iff_eq, decide_eq_true_eq, UInt16.toNat_inj]
    simp only [keepAuthority, denialRecord, e]
    rfl
  | _ => rfl

theorem filter_denial_pos {rr : RR} {ttl : UInt32} (h : denialRecord rr = true) (recs : List (RR × UInt32)) :
    ((rr, ttl) :: recs).filter (fun r => denialRecord r.1) = (rr, ttl) :: recs.filter (fun r => denialRecord r.1) := by
  rw [List.filter_cons_of_pos]; exact h

theorem filter_denial_neg {rr : RR} {ttl : UInt32} (h : denialRecord rr = false) (recs : List (RR × UInt32)) :
    ((rr, ttl) :: recs).filter (fun r => denialRecord r.1) = recs.filter (fun r => denialRecord r.1) := by
  rw [List.filter_cons_of_neg]; simp [h]

theorem authoritiesLoop_ok {n : Nat} : ∀ {st st' : HState}, authoritiesLoop dbg resp n st = (st', .ok ()) ↔
    ∃ recs, Records dbg resp n st.read recs st'.read ∧ Added st (recs.filter (fun r => denialRecord r.1)) st' := by
  induction n with
  | zero =>
    intro st st'
    constructor
    · intro h
      simp only [authoritiesLoop, Prod.mk.injEq, and_true] at h
      subst h
      exact ⟨[], .nil _, added_nil _⟩
    · rintro ⟨recs, h, e⟩
      generalize hr : st'.read = rd at h
      cases h with
      | nil =>
        obtain ⟨h1, h2, h3⟩ := e
        cases st'
        simp only [List.filter_nil, encode, signers, List.map_nil, List.flatten_nil, List.append_nil, List.filterMap_nil,
          List.foldl_nil] at *
        rw [authoritiesLoop, hr, h1, h2, h3]
  | succ n ih =>
    intro st st'
    rw [authoritiesLoop]
    cases hp : parseWirePacketRR dbg resp st.read with
    | err x =>
      simp only [Prod.mk.injEq, reduceCtorEq, and_false, false_iff, not_exists, not_and]
      intro recs h
      cases h with
      | cons h1 _ => rw [← parseWirePacketRR_iff, hp] at h1; simp at h1
    | panic =>
      simp only [Prod.mk.injEq, reduceCtorEq, and_false, false_iff, not_exists, not_and]
      intro recs h
      cases h with
      | cons h1 _ => rw [← parseWirePacketRR_iff, hp] at h1; simp at h1
    | ok p =>
      obtain ⟨⟨rr, ttl⟩, read⟩ := p
      simp only [keepAuthority_eq]
      cases hk : denialRecord rr with
      | true =>
        simp only [if_true]
        rw [ih]
        constructor
        · rintro ⟨recs, h1, h2⟩
          refine ⟨(rr, ttl) :: recs, .cons (parseWirePacketRR_iff.mp hp) h1, ?_⟩
          rw [filter_denial_pos hk]
          exact added_cons.mp h2
        · rintro ⟨recs, h1, h2⟩
          cases h1 with
          | cons g1 g2 =>
            rw [← parseWirePacketRR_iff, hp] at g1
            simp only [Res.ok.injEq, Prod.mk.injEq] at g1
            obtain ⟨rfl, rfl⟩ := g1
            rw [filter_denial_pos hk] at h2
            exact ⟨_, g2, added_cons.mpr h2⟩
      | false =>
        simp only [Bool.false_eq_true, if_false]
        rw [ih]
        constructor
        · rintro ⟨recs, h1, h2⟩
          refine ⟨(rr, ttl) :: recs, .cons (parseWirePacketRR_iff.mp hp) h1, ?_⟩
          rw [filter_denial_neg hk]
          exact added_setRead.mp h2
        · rintro ⟨recs, h1, h2⟩
          cases h1 with
          | cons g1 g2 =>
            rw [← parseWirePacketRR_iff, hp] at g1
            simp only [Res.ok.injEq, Prod.mk.injEq] at g1
            obtain ⟨rfl, rfl⟩ := g1
            rw [filter_denial_neg hk] at h2
            exact ⟨_, g2, added_setRead.mpr h2⟩

/-- In every case the loops only append records that were read from the message. -/
theorem answersLoop_any {n : Nat} : ∀ {st : HState}, ∃ recs k rest, k ≤ n ∧ Records dbg resp k st.read recs rest ∧
    Added st recs (answersLoop dbg resp n st).1 := by
  induction n with
  | zero => intro st; exact ⟨[], 0, _, Nat.le_refl _, .nil _, added_nil _⟩
  | succ n ih =>
    intro st
    rw [answersLoop]
    cases hp : parseWirePacketRR dbg resp st.read with
    | err x => exact ⟨[], 0, _, Nat.zero_le _, .nil _, added_nil _⟩
    | panic => exact ⟨[], 0, _, Nat.zero_le _, .nil _, added_nil _⟩
    | ok p =>
      obtain ⟨⟨rr, ttl⟩, read⟩ := p
      obtain ⟨recs, k, rest, hk, h1, h2⟩ := @ih ({ st with read := read }.add rr ttl)
      exact ⟨(rr, ttl) :: recs, k + 1, rest, by omega, .cons (parseWirePacketRR_iff.mp hp) h1, added_cons.mp h2⟩

theorem authoritiesLoop_any {n : Nat} : ∀ {st : HState}, ∃ recs k rest, k ≤ n ∧ Records dbg resp k st.read recs rest ∧
    Added st (recs.filter (fun r => denialRecord r.1)) (authoritiesLoop dbg resp n st).1 := by
  induction n with
  | zero => intro st; exact ⟨[], 0, _, Nat.le_refl _, .nil _, added_nil _⟩
  | succ n ih =>
    intro st
    rw [authoritiesLoop]
    cases hp : parseWirePacketRR dbg resp st.read with
    | err x => exact ⟨[], 0, _, Nat.zero_le _, .nil _, added_nil _⟩
    | panic => exact ⟨[], 0, _, Nat.zero_le _, .nil _, added_nil _⟩
    | ok p =>
      obtain ⟨⟨rr, ttl⟩, read⟩ := p
      simp only [keepAuthority_eq]
      cases hk : denialRecord rr with
      | true =>
        obtain ⟨recs, k, rest, hk', h1, h2⟩ := @ih ({ st with read := read }.add rr ttl)
        refine ⟨(rr, ttl) :: recs, k + 1, rest, by omega, .cons (parseWirePacketRR_iff.mp hp) h1, ?_⟩
        rw [filter_denial_pos hk]
        exact added_cons.mp h2
      | false =>
        obtain ⟨recs, k, rest, hk', h1, h2⟩ := @ih ({ st with read := read })
        refine ⟨(rr, ttl) :: recs, k + 1, rest, by omega, .cons (parseWirePacketRR_iff.mp hp) h1, ?_⟩
        rw [filter_denial_neg hk]
        exact added_setRead.mp h2

theorem added_trans {st st1 st2 : HState} {r1 r2 : List (RR × UInt32)} (h1 : Added st r1 st1) (h2 : Added st1 r2 st2) :
    Added st (r1 ++ r2) st2 := by
  refine ⟨?_, ?_, ?_⟩
  · rw [h2.proof, h1.proof]; simp [encode]
  · rw [h2.names, h1.names]; simp [signers]
  · rw [h2.minTtl, h1.minTtl, List.foldl_append]

/-! ### The whole -/

theorem records_length {k : Nat} {inp rest : Bytes} {rs : List (RR × UInt32)} (h : Records dbg resp k inp rs rest) : rs.length = k := by
  induction h with
  | nil => rfl
  | cons _ _ ih => simp [ih]

theorem records_unique {k : Nat} {inp r1 : Bytes} {rs1 : List (RR × UInt32)} (h1 : Records dbg resp k inp rs1 r1) :
    ∀ {r2 : Bytes} {rs2 : List (RR × UInt32)}, Records dbg resp k inp rs2 r2 → rs1 = rs2 ∧ r1 = r2 := by
  induction h1 with
  | nil => intro r2 rs2 h2; cases h2; exact ⟨rfl, rfl⟩
  | cons g _ ih =>
    intro r2 rs2 h2
    cases h2 with
    | cons g' h' =>
      rw [← parseWirePacketRR_iff] at g g'
      rw [g] at g'
      obtain ⟨rfl, rfl⟩ := by simpa using g'
      obtain ⟨rfl, rfl⟩ := ih h'
      exact ⟨rfl, rfl⟩

theorem foldl_min_le (recs : List (RR × UInt32)) : ∀ t : UInt32, (recs.foldl (fun t r => min t r.2) t).toNat ≤ t.toNat ∧
    (∀ r ∈ recs, (recs.foldl (fun t r => min t r.2) t).toNat ≤ r.2.toNat) ∧
    (recs.foldl (fun t r => min t r.2) t = t ∨ ∃ r ∈ recs, r.2 = recs.foldl (fun t r => min t r.2) t) := by
  induction recs with
  | nil => intro t; simp
  | cons r rs ih =>
    intro t
    simp only [List.foldl_cons]
    obtain ⟨h1, h2, h3⟩ := ih (min t r.2)
    have hm : (min t r.2).toNat ≤ t.toNat ∧ (min t r.2).toNat ≤ r.2.toNat ∧ (min t r.2 = t ∨ min t r.2 = r.2) := by
      have : min t r.2 = if t ≤ r.2 then t else r.2 := rfl
      rw [this]
      split
      · rename_i h; exact ⟨Nat.le_refl _, UInt32.le_iff_toNat_le.mp h, Or.inl rfl⟩
      · rename_i h
        have := UInt32.lt_iff_toNat_lt.mp (UInt32.not_le.mp h)
        exact ⟨by omega, Nat.le_refl _, Or.inr rfl⟩
    refine ⟨by omega, ?_, ?_⟩
    · intro x hx
      rcases List.mem_cons.mp hx with rfl | hx
      · omega
      · exact h2 x hx
    · rcases h3 with h3 | ⟨x, hx, e⟩
      · rcases hm.2.2 with h | h
        · left; rw [h3, h]
        · right; exact ⟨r, by simp, by rw [h3, h]⟩
      · right; exact ⟨x, by simp [hx], e⟩

/-- Appending to non-empty records, the initial `u32::MAX` does not matter. -/
theorem foldl_min_isMin {recs : List (RR × UInt32)} (h : recs ≠ []) (t : UInt32) (ht : ∀ r ∈ recs, r.2.toNat ≤ t.toNat) :
    IsMinTtl (recs.foldl (fun t r => min t r.2) t) recs := by
  obtain ⟨h1, h2, h3⟩ := foldl_min_le recs t
  refine ⟨h2, ?_⟩
  rcases h3 with h3 | h3
  · cases recs with
    | nil => exact absurd rfl h
    | cons r rs =>
      refine ⟨r, by simp, ?_⟩
      have a := h2 r (by simp)
      have b := ht r (by simp)
      rw [h3] at a ⊢
      exact UInt32.toNat_inj.mp (by omega)
  · exact h3

theorem isMinTtl_unique {t t' : UInt32} {recs : List (RR × UInt32)} (h : IsMinTtl t recs) (h' : IsMinTtl t' recs) : t = t' := by
  obtain ⟨h1, r, hr, e⟩ := h
  obtain ⟨h1', r', hr', e'⟩ := h'
  have := h1 r' hr'
  have := h1' r hr
  rw [e] at this
  rw [e'] at *
  exact UInt32.toNat_inj.mp (by omega)

theorem contributes_ne_nil {recs : List (RR × UInt32)} (h : Contributes dbg resp recs) : recs ≠ [] := by
  obtain ⟨_, an, _, _, _, _, _, _, _, _, ans, auth, _, _, _, _, _, _, hn, h1, _, e⟩ := h
  have hl := records_length h1
  rw [e]
  intro hc
  rw [(List.append_eq_nil_iff.mp hc).1] at hl
  simp only [List.length_nil] at hl
  omega

theorem isMessage_body {id fl qd an ns ar : UInt16} {qn : Name} {qt qc : UInt16} {body : Bytes}
    (h : IsMessage resp id fl qd an ns ar qn qt qc body) {id' fl' qd' an' ns' ar' : UInt16} {qn' : Name} {qt' qc' : UInt16}
    {body' : Bytes} (h' : IsMessage resp id' fl' qd' an' ns' ar' qn' qt' qc' body') : an = an' ∧ ns = ns' ∧ body = body' := by
  obtain ⟨ah, e, hr⟩ := h
  obtain ⟨ah', e', hr'⟩ := h'
  have key : ∀ {a b : UInt16} {x y : Bytes}, be16 a ++ x = be16 b ++ y → a = b ∧ x = y := by
    intro a b x y h
    have h1 : readU16 (be16 a ++ x) = .ok (b, y) := by rw [h, readU16_be16]
    rw [readU16_be16] at h1
    simpa using h1
  have e2 := e.symm.trans e'
  obtain ⟨_, e2⟩ := key e2
  obtain ⟨_, e2⟩ := key e2
  obtain ⟨_, e2⟩ := key e2
  obtain ⟨h1, e2⟩ := key e2
  obtain ⟨h2, e2⟩ := key e2
  obtain ⟨_, e2⟩ := key e2
  subst e2
  have hr := readName_reads.mpr hr
  rw [readName_reads.mpr hr'] at hr
  simp only [Res.ok.injEq, Prod.mk.injEq] at hr
  obtain ⟨_, e3⟩ := key hr.2.symm
  exact ⟨h1, h2, (key e3).2⟩

theorem contributes_unique {recs recs' : List (RR × UInt32)} (h : Contributes dbg resp recs) (h' : Contributes dbg resp recs') :
    recs = recs' := by
  obtain ⟨_, an, ns, _, _, _, _, body, mid, rest, ans, auth, hm, _, _, _, _, _, _, h1, h2, e⟩ := h
  obtain ⟨_, an', ns', _, _, _, _, body', mid', rest', ans', auth', hm', _, _, _, _, _, _, h1', h2', e'⟩ := h'
  obtain ⟨rfl, rfl, rfl⟩ := isMessage_body hm hm'
  obtain ⟨rfl, rfl⟩ := records_unique h1 h1'
  obtain ⟨rfl, rfl⟩ := records_unique h2 h2'
  rw [e, e']

theorem le_max32 (x : UInt32) : x.toNat ≤ (0xffffffff : UInt32).toNat := by
  have := x.toNat_lt
  have e : (0xffffffff : UInt32).toNat = 4294967295 := rfl
  omega

theorem handleResponse_ok_iff (proof proof' : Bytes) (names names' : List Name) (ttl : UInt32) :
    handleResponse dbg resp proof names = ((proof', names'), .ok ttl) ↔
      ∃ recs, Contributes dbg resp recs ∧ proof' = proof ++ encode recs ∧ names' = names ++ signers recs ∧ IsMinTtl ttl recs := by
  constructor
  · intro h
    unfold handleResponse at h
    cases hh : readHeader resp with
    | err x => rw [hh] at h; simp at h
    | panic => rw [hh] at h; simp at h
    | ok p =>
      obtain ⟨⟨an, ns⟩, body⟩ := p
      rw [hh] at h
      simp only at h
      obtain ⟨fl, ar, qn, qt, qc, hm, f1, f2, f3, f4, f5, hn⟩ := (readHeader_iff _ _ _ _).mp hh
      cases ha : answersLoop dbg resp an.toNat ⟨body, proof, names, 0xffffffff⟩ with
      | mk st1 r1 =>
        rw [ha] at h
        cases r1 with
        | err x => simp at h
        | panic => simp at h
        | ok u =>
          simp only at h
          cases hb : authoritiesLoop dbg resp ns.toNat st1 with
          | mk st2 r2 =>
            rw [hb] at h
            cases r2 with
            | err x => simp at h
            | panic => simp at h
            | ok u =>
              simp only [Prod.mk.injEq, Res.ok.injEq] at h
              obtain ⟨⟨rfl, rfl⟩, rfl⟩ := h
              obtain ⟨ans, h1, e1⟩ := answersLoop_ok.mp ha
              obtain ⟨auth, h2, e2⟩ := authoritiesLoop_ok.mp hb
              have hc : Contributes dbg resp (ans ++ auth.filter (fun r => denialRecord r.1)) :=
                ⟨fl, an, ns, ar, qn, qt, qc, body, _, _, ans, auth, hm, f1, f2, f3, f4, f5, hn, h1, h2, rfl⟩
              have ha := added_trans e1 e2
              refine ⟨_, hc, ha.proof, ha.names, ?_⟩
              rw [ha.minTtl]
              exact foldl_min_isMin (contributes_ne_nil hc) _ (fun r _ => le_max32 _)
  · rintro ⟨recs, hc, rfl, rfl, ht⟩
    have hc' := hc
    obtain ⟨fl, an, ns, ar, qn, qt, qc, body, mid, rest, ans, auth, hm, f1, f2, f3, f4, f5, hn, h1, h2, e⟩ := hc
    have hh := (readHeader_iff resp an ns body).mpr ⟨fl, ar, qn, qt, qc, hm, f1, f2, f3, f4, f5, hn⟩
    unfold handleResponse
    rw [hh]
    simp only
    have ha : answersLoop dbg resp an.toNat ⟨body, proof, names, 0xffffffff⟩ =
        (⟨mid, proof ++ encode ans, names ++ signers ans, ans.foldl (fun t r => min t r.2) 0xffffffff⟩, .ok ()) :=
      answersLoop_ok.mpr ⟨ans, h1, rfl, rfl, rfl⟩
    rw [ha]
    simp only
    have hb : authoritiesLoop dbg resp ns.toNat
          ⟨mid, proof ++ encode ans, names ++ signers ans, ans.foldl (fun t r => min t r.2) 0xffffffff⟩ =
        (⟨rest, proof ++ encode ans ++ encode (auth.filter (fun r => denialRecord r.1)),
          names ++ signers ans ++ signers (auth.filter (fun r => denialRecord r.1)),
          (auth.filter (fun r => denialRecord r.1)).foldl (fun t r => min t r.2) (ans.foldl (fun t r => min t r.2) 0xffffffff)⟩,
          .ok ()) :=
      authoritiesLoop_ok.mpr ⟨auth, h2, rfl, rfl, rfl⟩
    rw [hb]
    simp only [Prod.mk.injEq, Res.ok.injEq]
    refine ⟨⟨by rw [e]; simp [encode], by rw [e]; simp [signers]⟩, ?_⟩
    refine isMinTtl_unique (recs := recs) ?_ ht
    rw [← List.foldl_append, ← e]
    exact foldl_min_isMin (contributes_ne_nil hc') _ (fun r _ => le_max32 _)

/-- A record that was read from the message. -/
def ReadFrom (dbg : Bool) (resp : Bytes) (r : RR × UInt32) : Prop := ∃ inp rest, parseWirePacketRR dbg resp inp = .ok (r, rest)

theorem records_readFrom {k : Nat} {inp rest : Bytes} {rs : List (RR × UInt32)} (h : Records dbg resp k inp rs rest) :
    ∀ r ∈ rs, ReadFrom dbg resp r := by
  induction h with
  | nil => simp
  | cons h1 _ ih =>
    intro x hx
    rcases List.mem_cons.mp hx with rfl | hx
    · exact ⟨_, _, parseWirePacketRR_iff.mpr h1⟩
    · exact ih x hx

/-- Whatever the result, the proof is only appended to, with whole records of the message. -/
theorem handleResponse_any (proof : Bytes) (names : List Name) :
    ∃ recs, (∀ r ∈ recs, ReadFrom dbg resp r) ∧ (handleResponse dbg resp proof names).1.1 = proof ++ encode recs := by
  unfold handleResponse
  cases hh : readHeader resp with
  | err x => exact ⟨[], by simp, by simp [encode]⟩
  | panic => exact ⟨[], by simp, by simp [encode]⟩
  | ok p =>
    obtain ⟨⟨an, ns⟩, body⟩ := p
    simp only
    obtain ⟨ans, k, rest, _, h1, e1⟩ := @answersLoop_any dbg resp an.toNat ⟨body, proof, names, 0xffffffff⟩
    cases ha : answersLoop dbg resp an.toNat ⟨body, proof, names, 0xffffffff⟩ with
    | mk st1 r1 =>
      rw [ha] at e1
      have p1 : st1.proof = proof ++ encode ans := e1.proof
      cases r1 with
      | err x => exact ⟨ans, records_readFrom h1, p1⟩
      | panic => exact ⟨ans, records_readFrom h1, p1⟩
      | ok u =>
        simp only
        obtain ⟨auth, k2, rest2, _, h2, e2⟩ := @authoritiesLoop_any dbg resp ns.toNat st1
        cases hb : authoritiesLoop dbg resp ns.toNat st1 with
        | mk st2 r2 =>
          rw [hb] at e2
          have p2 : st2.proof = proof ++ encode (ans ++ auth.filter (fun r => denialRecord r.1)) := (added_trans e1 e2).proof
          have hm : ∀ r ∈ ans ++ auth.filter (fun r => denialRecord r.1), ReadFrom dbg resp r := by
            intro r hr
            rcases List.mem_append.mp hr with hr | hr
            · exact records_readFrom h1 r hr
            · exact records_readFrom h2 r (List.mem_filter.mp hr).1
          cases r2 with
          | err x => exact ⟨_, hm, p2⟩
          | panic => exact ⟨_, hm, p2⟩
          | ok u => exact ⟨_, hm, p2⟩

end Dnssec
