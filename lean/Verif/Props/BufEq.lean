import Verif.Proofs.BufEq

/-! # C79: equality of buffers -/

namespace Dnssec.Props

open Dnssec Spec

variable {L : UInt16}

/-- **C79.** Buffers that compare equal (the derived `PartialEq`, which compares all fields) have the same contents. -/
theorem C79_equal_contents (a b : QueryBuf L) (h : (a == b) = true) : a.deref = b.deref ∧ a.intoVec = b.intoVec := by
  rw [eq_of_beq h]
  exact ⟨rfl, rfl⟩

/-- **C79 for contents of at most the size of the stack part** (2048 bytes in production): however the two buffers came about, they
compare equal iff they have the same contents. Missing from the full property: longer contents, for which it is false. -/
theorem C79_iff_partial (n m : UInt16) (ops ops' : List BufOp) (a b : QueryBuf L)
    (ha : bufRun (QueryBuf.newZeroed L n) ops = some a) (hb : bufRun (QueryBuf.newZeroed L m) ops' = some b)
    (hlen : a.deref.length ≤ L.toNat) : (a == b) = true ↔ a.deref = b.deref := by
  constructor
  · exact fun h => (C79_equal_contents a b h).1
  · intro h
    have wa := (QueryBuf.bufRun_eq ops (QueryBuf.newZeroed_wf L n)).2.2 a ha
    have wb := (QueryBuf.bufRun_eq ops' (QueryBuf.newZeroed_wf L m)).2.2 b hb
    rw [QueryBuf.ext_of_clean wa wb (QueryBuf.bufRun_clean ops (QueryBuf.newZeroed_wf L n) (QueryBuf.newZeroed_clean L n) ha)
      (QueryBuf.bufRun_clean ops' (QueryBuf.newZeroed_wf L m) (QueryBuf.newZeroed_clean L m) hb) h hlen]
    exact beq_self_eq_true b

/-- Two ways to the bytes 1, 2, 3. -/
example : (bufRun (QueryBuf.newZeroed 4 0) [.extend [1], .extend [2, 3]]).map QueryBuf.deref = some [1, 2, 3] ∧
    bufRun (QueryBuf.newZeroed 4 0) [.extend [1], .extend [2, 3]] = bufRun (QueryBuf.newZeroed 4 3) [.write [1, 2, 3]] := by decide

/-- **C79 is false for longer contents:** for every stack limit below 65535, a buffer made in one piece and one that grew to the same
size and has the same contents compare unequal, because the bytes the latter left on the stack count. -/
theorem C79_fails_on_the_heap (L : UInt16) (h0 : 0 < L.toNat) (hL : L.toNat < 65535) :
    ∃ ops ops' a b, bufRun (QueryBuf.newZeroed L 0) ops = some a ∧ bufRun (QueryBuf.newZeroed L (L + 1)) ops' = some b ∧
      a.deref = b.deref ∧ a.intoVec = b.intoVec ∧ (a == b) = false := by
  have hL1 : (L + 1).toNat = L.toNat + 1 := by rw [UInt16.toNat_add]; simp; omega
  have hgt : L + 1 > L := UInt16.lt_iff_toNat_lt.mpr (by omega)
  have z0 : (QueryBuf.newZeroed L 0).deref = [] := by rw [QueryBuf.newZeroed_deref]; rfl
  have z1 : (QueryBuf.newZeroed L (L + 1)).deref = List.replicate (L.toNat + 1) 0 := by rw [QueryBuf.newZeroed_deref, hL1]
  obtain ⟨q1, e1, w1, d1, l1⟩ := QueryBuf.extend_ok (QueryBuf.newZeroed_wf L 0) (sl := [1])
    (show (0 : UInt16).toNat + [(1 : UInt8)].length ≤ 65535 by simp)
  have l1' : q1.len.toNat = 1 := l1
  obtain ⟨a, e2, w2, d2, l2⟩ := QueryBuf.extend_ok w1 (sl := List.replicate L.toNat 0) (by rw [List.length_replicate]; omega)
  obtain ⟨b, e3, w3, d3, l3⟩ := QueryBuf.overwrite_ok (QueryBuf.newZeroed_wf L (L + 1)) (new := 1 :: List.replicate L.toNat 0)
    (by rw [z1]; simp)
  have da : a.deref = 1 :: List.replicate L.toNat 0 := by rw [d2, d1, z0]; rfl
  refine ⟨[.extend [1], .extend (List.replicate L.toNat 0)], [.write (1 :: List.replicate L.toNat 0)], a, b, ?_, ?_, ?_, ?_, ?_⟩
  · simp only [bufRun, e1, Option.bind_some, e2]
  · simp only [bufRun, e3, Option.bind_some]
  · rw [da, d3]
  · show a.deref = b.deref
    rw [da, d3]
  · have hal : satAdd16 q1.len (UInt16.ofNat (List.replicate L.toNat (0 : UInt8)).length) > L := by
      refine UInt16.lt_iff_toNat_lt.mpr ?_
      rw [List.length_replicate, satAdd16]
      split
      · exact hL
      · rename_i hno
        rw [UInt16.toNat_add]
        have : (UInt16.ofNat L.toNat).toNat = L.toNat := by simp
        rw [this, l1'] at hno ⊢
        have : (1 + L.toNat) % 2 ^ 16 = 1 + L.toNat := Nat.mod_eq_of_lt (by omega)
        omega
    have ba : a.buf = q1.buf := (QueryBuf.extendTo_buf hal e2).1
    have bb : b.buf = (QueryBuf.newZeroed L (L + 1)).buf := QueryBuf.overwrite_buf hgt e3
    have t1 : q1.buf.1.take 1 = [1] := by
      have : ¬ q1.len > L := UInt16.not_lt.mpr (UInt16.le_iff_toNat_le.mpr (by omega))
      have h := d1
      rw [z0] at h
      simp only [QueryBuf.deref, this, if_false, l1'] at h
      exact h
    have t2 : b.buf.1.take 1 = [0] := by
      rw [bb]
      simp only [QueryBuf.newZeroed, List.take_replicate]
      have : min 1 L.toNat = 1 := by omega
      rw [this]
      rfl
    refine beq_eq_false_iff_ne.mpr fun hab => ?_
    rw [← hab, ba, t1] at t2
    exact absurd t2 (by decide)

/-- The limit in production. -/
example : 0 < stackBufLimit.toNat ∧ stackBufLimit.toNat < 65535 := by decide

end Dnssec.Props
