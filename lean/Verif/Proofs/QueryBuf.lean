import Verif.Spec.Query
import Verif.Proofs.Labels
import Verif.Proofs.Wire

/-! # `QueryBuf` and `build_query` -/

namespace Dnssec

open Spec

namespace QueryBuf

variable {L : UInt16}

/-- The heap buffer is exactly as long as the contents, when it is used. -/
def WF (q : QueryBuf L) : Prop := q.len > L → q.heap.length = q.len.toNat

theorem newZeroed_wf (L len : UInt16) : (newZeroed L len).WF := by
  intro h
  have h : len > L := h
  simp [newZeroed, h]

theorem newZeroed_deref (L len : UInt16) : (newZeroed L len).deref = List.replicate len.toNat 0 := by
  unfold deref newZeroed
  simp only
  split
  · rfl
  · rename_i h
    have : len.toNat ≤ L.toNat := UInt16.le_iff_toNat_le.mp (UInt16.not_lt.mp h)
    rw [List.take_replicate, Nat.min_eq_left this]

theorem deref_length {q : QueryBuf L} (h : q.WF) : q.deref.length = q.len.toNat := by
  unfold deref
  split
  · rename_i hl; exact h hl
  · rename_i hl
    have h1 := UInt16.le_iff_toNat_le.mp (UInt16.not_lt.mp hl)
    rw [List.length_take, q.buf.2]; omega

theorem satAdd_ofNat (a : UInt16) (n : Nat) (h : a.toNat + n ≤ 65535) :
    (satAdd16 a (UInt16.ofNat n)).toNat = a.toNat + n := by
  unfold satAdd16
  have : (UInt16.ofNat n).toNat = n := by rw [UInt16.toNat_ofNat']; omega
  rw [this, if_neg (by omega), UInt16.toNat_add, this]
  omega

theorem gt_iff (a b : UInt16) : a > b ↔ b.toNat < a.toNat := UInt16.lt_iff_toNat_lt

theorem extend_ok {q : QueryBuf L} (hq : q.WF) {sl : Bytes} (h : q.len.toNat + sl.length ≤ 65535) :
    ∃ q', q.extendFromSlice sl = some q' ∧ q'.WF ∧ q'.deref = q.deref ++ sl ∧ q'.len.toNat = q.len.toNat + sl.length := by
  have hn := satAdd_ofNat q.len sl.length h
  unfold extendFromSlice
  generalize hN : satAdd16 q.len (UInt16.ofNat sl.length) = N at hn ⊢
  unfold extendTo
  simp only
  have hb := q.buf.2
  by_cases h1 : q.len > L
  · have h2 : N > L := by rw [gt_iff] at *; omega
    have hl := hq h1
    have e : resize0 q.heap N.toNat = q.heap ++ List.replicate sl.length 0 := by
      unfold resize0
      rw [List.take_of_length_le (by omega)]
      congr 2; omega
    simp only [h1, h2, decide_true, ne_eq, not_true_eq_false, if_false, if_true, e]
    rw [if_pos ⟨by rw [List.length_append]; omega, by rw [List.length_append, List.length_replicate]; omega⟩]
    have ht : (q.heap ++ List.replicate sl.length 0).take q.len.toNat = q.heap := by
      rw [← hl, List.take_left']; rfl
    refine ⟨_, rfl, ?_, ?_, hn⟩
    · intro _
      simp only [ht, List.length_append]; omega
    · simp only [deref, h1, h2, if_true, ht]
  · have h1' : q.len.toNat ≤ L.toNat := by rw [gt_iff] at h1; omega
    by_cases h2 : N > L
    · have h2' := (gt_iff _ _).mp h2
      have hle : q.len ≤ N ∧ q.len ≤ L := ⟨UInt16.le_iff_toNat_le.mpr (by omega), UInt16.le_iff_toNat_le.mpr h1'⟩
      have hlen : (q.buf.1.take q.len.toNat).length = q.len.toNat := by rw [List.length_take]; omega
      have e : resize0 (q.buf.1.take q.len.toNat ++ List.replicate (N.toNat - q.len.toNat) 0) N.toNat =
          q.buf.1.take q.len.toNat ++ List.replicate sl.length 0 := by
        unfold resize0
        have hz : (q.buf.1.take q.len.toNat ++ List.replicate (N.toNat - q.len.toNat) (0 : UInt8)).length = N.toNat := by
          rw [List.length_append, hlen, List.length_replicate]; omega
        rw [List.take_of_length_le (by omega), hz, Nat.sub_self]
        simp only [List.replicate_zero, List.append_nil]
        congr 2; omega
      simp only [h1, h2, decide_false, decide_true, ne_eq, Bool.false_eq_true, not_false_eq_true, if_true, hle, and_self, e]
      rw [if_pos ⟨by rw [List.length_append]; omega, by rw [List.length_append, hlen, List.length_replicate]; omega⟩]
      have ht : (q.buf.1.take q.len.toNat ++ List.replicate sl.length 0).take q.len.toNat = q.buf.1.take q.len.toNat := by
        rw [List.take_left' hlen]
      refine ⟨_, rfl, ?_, ?_, hn⟩
      · intro _
        simp only [ht, List.length_append, hlen]; omega
      · simp only [deref, h1, h2, if_true, if_false, ht]
    · have h2' : N.toNat ≤ L.toNat := by rw [gt_iff] at h2; omega
      have hlen : (q.buf.1.take q.len.toNat).length = q.len.toNat := by rw [List.length_take]; omega
      simp only [h1, h2, decide_false, ne_eq, not_true_eq_false, if_false, Bool.false_eq_true]
      rw [dif_pos ⟨by omega, h2', by omega⟩]
      refine ⟨_, rfl, fun h => absurd h h2, ?_, hn⟩
      simp only [deref, h1, h2, if_false]
      rw [List.take_left']
      rw [List.length_append, hlen]; omega

theorem extend_panic {q : QueryBuf L} {sl : Bytes} (h : 65535 < q.len.toNat + sl.length) :
    q.extendFromSlice sl = none := by
  have hql := q.len.toNat_lt
  have hge : q.len.toNat ≤ (satAdd16 q.len (UInt16.ofNat sl.length)).toNat ∧
      (satAdd16 q.len (UInt16.ofNat sl.length)).toNat - q.len.toNat ≠ sl.length := by
    unfold satAdd16
    have e : (UInt16.ofNat sl.length).toNat = sl.length % 65536 := UInt16.toNat_ofNat'
    split
    · have : (65535 : UInt16).toNat = 65535 := rfl
      rw [this]
      omega
    · rename_i hs
      have : (q.len + UInt16.ofNat sl.length).toNat = q.len.toNat + sl.length % 65536 := by
        rw [UInt16.toNat_add, e]; omega
      rw [this]
      omega
  unfold extendFromSlice
  generalize satAdd16 q.len (UInt16.ofNat sl.length) = N at hge ⊢
  unfold extendTo
  simp only
  obtain ⟨h1, h2⟩ := hge
  have key : ∀ heap : Bytes, (if decide (N > L) = true then
      if q.len.toNat ≤ (resize0 heap N.toNat).length ∧ (resize0 heap N.toNat).length - q.len.toNat = sl.length then
        some ({ buf := q.buf, heap := (resize0 heap N.toNat).take q.len.toNat ++ sl, len := N } : QueryBuf L)
      else none
    else
      if h : q.len.toNat ≤ N.toNat ∧ N.toNat ≤ L.toNat ∧ N.toNat - q.len.toNat = sl.length then
        some
          { buf := ⟨q.buf.1.take q.len.toNat ++ sl ++ q.buf.1.drop N.toNat, by
              have := q.buf.2
              simp only [List.length_append, List.length_take, List.length_drop]; omega⟩
            heap := heap
            len := N }
      else none) = none := by
    intro heap
    have hr : (resize0 heap N.toNat).length = N.toNat := by
      unfold resize0; rw [List.length_append, List.length_take, List.length_replicate]; omega
    split
    · rw [if_neg (by rw [hr]; omega)]
    · rw [dif_neg (by omega)]
  split
  · rfl
  · exact key _

theorem overwrite_ok {q : QueryBuf L} (hq : q.WF) {new : Bytes} (h : new.length = q.deref.length) :
    ∃ q', q.overwrite new = some q' ∧ q'.WF ∧ q'.deref = new ∧ q'.len = q.len := by
  unfold overwrite
  rw [dif_pos h]
  have hl := deref_length hq
  split
  · rename_i hL
    refine ⟨_, rfl, ?_, ?_, rfl⟩
    · intro _; simp only; omega
    · simp [deref, hL]
  · rename_i hL
    refine ⟨_, rfl, fun h => absurd h hL, ?_, rfl⟩
    simp only [deref, hL, if_false]
    rw [List.take_left' (by omega)]

theorem overwrite_panic {q : QueryBuf L} {new : Bytes} (h : new.length ≠ q.deref.length) : q.overwrite new = none := by
  unfold overwrite; rw [dif_neg h]

theorem bufRun_eq : ∀ (ops : List BufOp) {q : QueryBuf L}, q.WF →
    (bufRun q ops).map deref = vecRun q.deref ops ∧ (bufRun q ops).map intoVec = vecRun q.deref ops ∧
    ∀ q', bufRun q ops = some q' → q'.WF
  | [], q, hq => ⟨rfl, rfl, fun q' h => by simp only [bufRun, Option.some.injEq] at h; subst h; exact hq⟩
  | .extend sl :: ops, q, hq => by
    simp only [bufRun, vecRun]
    rw [deref_length hq]
    split
    · rename_i h
      obtain ⟨q', h1, h2, h3, _⟩ := extend_ok hq h
      rw [h1]
      have := bufRun_eq ops h2
      rw [h3] at this
      exact this
    · rename_i h
      rw [extend_panic (by omega)]
      exact ⟨rfl, rfl, fun q' h => by simp at h⟩
  | .write new :: ops, q, hq => by
    simp only [bufRun, vecRun]
    split
    · rename_i h
      obtain ⟨q', h1, h2, h3, _⟩ := overwrite_ok hq h
      rw [h1]
      have := bufRun_eq ops h2
      rw [h3] at this
      exact this
    · rename_i h
      rw [overwrite_panic h]
      exact ⟨rfl, rfl, fun q' h => by simp at h⟩

theorem extendAll_ok : ∀ (ss : List Bytes) {q : QueryBuf L}, q.WF → q.len.toNat + ss.flatten.length ≤ 65535 →
    ∃ q', q.extendAll ss = some q' ∧ q'.WF ∧ q'.deref = q.deref ++ ss.flatten
  | [], q, hq, _ => ⟨q, rfl, hq, by simp⟩
  | s :: ss, q, hq, h => by
    rw [List.flatten_cons, List.length_append] at h
    obtain ⟨q1, h1, h2, h3, h4⟩ := extend_ok (sl := s) hq (by omega)
    obtain ⟨q2, g1, g2, g3⟩ := extendAll_ok ss h2 (by omega)
    refine ⟨q2, by simp only [extendAll, h1, g1], g2, ?_⟩
    rw [g3, h3]; simp

end QueryBuf

theorem writeNameSlices_flatten (s : Bytes) : (writeNameSlices s).flatten = writeName s := by
  unfold writeNameSlices writeName
  simp only
  split
  · rfl
  · generalize splitDot (lower s) = ps
    induction ps with
    | nil => rfl
    | cons p ps ih => simpa using ih

theorem queryBytes_eq (n : Name) (ty : UInt16) : queryBytes n ty = queryMessage (writeName n.bytes) ty := by
  unfold queryBytes querySlices queryMessage
  simp only [List.flatten_append, writeNameSlices_flatten]
  have : be16 txid = [0, 0] := by decide
  have h2 : be16 1 = [0, 1] := by decide
  have h4 : be16 0x8000 = [0x80, 0] := by decide
  simp [this, h2, h4]

theorem splitDot_sum (s : Bytes) : ((splitDot s).map (fun l => l.length + 1)).sum = s.length + 1 := by
  induction s with
  | nil => rfl
  | cons b bs ih =>
    by_cases hb : b = dot
    · subst hb
      rw [splitDot_cons_dot]; simp only [List.map_cons, List.sum_cons, ih, List.length_nil, List.length_cons]; omega
    · obtain ⟨p, ps, h1, h2⟩ := splitDot_cons_ne hb bs
      rw [h1] at ih
      rw [h2]
      simp only [List.map_cons, List.sum_cons, List.length_cons] at ih ⊢
      omega

theorem writeName_length_le (s : Bytes) : (writeName s).length ≤ s.length + 1 := by
  unfold writeName
  simp only
  split
  · simp
  · have h := splitDot_sum (lower s)
    have : ∀ ps : List Bytes, ((ps.map (fun l => UInt8.ofNat l.length :: l)).flatten).length =
        (ps.map (fun l => l.length + 1)).sum := by
      intro ps
      induction ps with
      | nil => rfl
      | cons p ps ih => simp [ih]; omega
    simp only [this, h, lower_length]; omega

theorem queryMessage_length (w : Bytes) (ty : UInt16) : (queryMessage w ty).length = w.length + 27 := by
  simp [queryMessage, be16]

theorem buildQuery_ok (L : UInt16) (n : Name) (ty : UInt16) (h : n.bytes.length ≤ 255) :
    ∃ q, buildQuery L n ty = some q ∧ q.deref = queryMessage (writeName n.bytes) ty := by
  have hl := writeName_length_le n.bytes
  have hq := queryMessage_length (writeName n.bytes) ty
  have he := queryBytes_eq n ty
  unfold queryBytes at he
  obtain ⟨q, h1, _, h3⟩ := QueryBuf.extendAll_ok (querySlices n ty) (QueryBuf.newZeroed_wf L 0) (by
    rw [he]
    have : (QueryBuf.newZeroed L 0).len.toNat = 0 := rfl
    omega)
  refine ⟨q, h1, ?_⟩
  rw [h3, QueryBuf.newZeroed_deref, he]; rfl

end Dnssec
