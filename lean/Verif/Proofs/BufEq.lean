import Verif.Proofs.QueryBuf

/-! # Equality of buffers -/

namespace Dnssec

open Spec

namespace QueryBuf

variable {L : UInt16}

/-- While the contents are on the stack, the heap part is empty and the rest of the stack part is zero. -/
def Clean (q : QueryBuf L) : Prop :=
  q.len ≤ L → q.heap = [] ∧ q.buf.1.drop q.len.toNat = List.replicate (L.toNat - q.len.toNat) 0

theorem newZeroed_clean (L n : UInt16) : (newZeroed L n).Clean := by
  intro h
  have hn : ¬ n > L := UInt16.not_lt.mpr h
  refine ⟨by simp only [newZeroed, hn, if_false], ?_⟩
  simp only [newZeroed, List.drop_replicate]

theorem extendTo_clean {q q' : QueryBuf L} {sl : Bytes} {n : UInt16} (hq : q.Clean) (h : q.extendTo sl n = some q') :
    q'.Clean := by
  rw [extendTo.eq_def] at h
  simp only at h
  split at h
  · cases h
  rename_i heap hh
  split at h
  · rename_i hn
    split at h
    · cases h
      intro hle
      exact absurd (decide_eq_true_eq.mp hn) (UInt16.not_lt.mpr hle)
    · cases h
  · rename_i hn
    have hn' : ¬ n > L := by simpa using hn
    split at h
    · rename_i hs
      cases h
      intro _
      have hlen : q.len ≤ L := UInt16.le_iff_toNat_le.mpr (Nat.le_trans hs.1 hs.2.1)
      obtain ⟨h1, h2⟩ := hq hlen
      have hw : ¬ q.len > L := UInt16.not_lt.mpr hlen
      simp only [hw, hn', decide_false, ne_eq, not_true_eq_false, if_false, Option.some.injEq] at hh
      refine ⟨hh ▸ h1, ?_⟩
      have hb := q.buf.2
      have e1 : (q.buf.1.take q.len.toNat ++ sl).length = n.toNat := by
        rw [List.length_append, List.length_take, hb]; omega
      simp only
      rw [← e1, List.drop_left, e1]
      have e2 : n.toNat = q.len.toNat + (n.toNat - q.len.toNat) := by omega
      rw [e2, ← List.drop_drop, h2, List.drop_replicate]
      congr 1
      omega
    · cases h

theorem overwrite_clean {q q' : QueryBuf L} {new : Bytes} (hwf : q.WF) (hq : q.Clean) (h : q.overwrite new = some q') :
    q'.Clean := by
  rw [overwrite.eq_def] at h
  split at h
  · rename_i hl
    split at h
    · rename_i hl2
      cases h
      intro hle
      exact absurd hl2 (UInt16.not_lt.mpr hle)
    · rename_i hl2
      cases h
      have hlen : q.len ≤ L := UInt16.not_lt.mp hl2
      obtain ⟨h1, h2⟩ := hq hlen
      intro _
      refine ⟨h1, ?_⟩
      have e : new.length = q.len.toNat := by rw [hl, deref_length hwf]
      simp only
      rw [← e, List.drop_left, e, h2]
  · cases h

theorem bufRun_clean : ∀ (ops : List BufOp) {q q' : QueryBuf L}, q.WF → q.Clean → bufRun q ops = some q' → q'.Clean
  | [], q, q', _, hc, h => by
    simp only [bufRun, Option.some.injEq] at h
    exact h ▸ hc
  | .extend sl :: ops, q, q', hw, hc, h => by
    simp only [bufRun] at h
    cases e : q.extendFromSlice sl with
    | none => rw [e] at h; cases h
    | some q1 =>
      rw [e] at h
      have hw1 : q1.WF := (bufRun_eq [.extend sl] hw).2.2 q1 (by simp only [bufRun, e]; rfl)
      exact bufRun_clean ops hw1 (extendTo_clean hc e) h
  | .write new :: ops, q, q', hw, hc, h => by
    simp only [bufRun] at h
    cases e : q.overwrite new with
    | none => rw [e] at h; cases h
    | some q1 =>
      rw [e] at h
      have hw1 : q1.WF := (bufRun_eq [.write new] hw).2.2 q1 (by simp only [bufRun, e]; rfl)
      exact bufRun_clean ops hw1 (overwrite_clean hw hc e) h

/-- Clean buffers with the same contents on the stack are the same. -/
theorem ext_of_clean {a b : QueryBuf L} (ha : a.WF) (hb : b.WF) (ca : a.Clean) (cb : b.Clean) (h : a.deref = b.deref)
    (hl : a.deref.length ≤ L.toNat) : a = b := by
  have hlen : a.len = b.len := UInt16.toNat_inj.mp (by rw [← deref_length ha, ← deref_length hb, h])
  have hle : a.len ≤ L := UInt16.le_iff_toNat_le.mpr (by rw [← deref_length ha]; exact hl)
  have hle' : b.len ≤ L := hlen ▸ hle
  obtain ⟨h1, h2⟩ := ca hle
  obtain ⟨h3, h4⟩ := cb hle'
  have d1 : a.deref = a.buf.1.take a.len.toNat := by
    have : ¬ a.len > L := UInt16.not_lt.mpr hle
    simp only [deref, this, if_false]
  have d2 : b.deref = b.buf.1.take b.len.toNat := by
    have : ¬ b.len > L := UInt16.not_lt.mpr hle'
    simp only [deref, this, if_false]
  have hbuf : a.buf.1 = b.buf.1 := by
    rw [← List.take_append_drop a.len.toNat a.buf.1, ← d1, h, d2, h2, hlen, ← h4, List.take_append_drop]
  cases a; cases b
  simp only at hlen hbuf h1 h3
  subst hlen
  subst h1
  subst h3
  congr 1
  exact Subtype.ext hbuf

/-- Growing to or on the heap does not touch the stack part. -/
theorem extendTo_buf {q q' : QueryBuf L} {sl : Bytes} {n : UInt16} (hn : n > L) (h : q.extendTo sl n = some q') :
    q'.buf = q.buf ∧ q'.len = n := by
  rw [extendTo.eq_def] at h
  simp only [hn, decide_true, if_true] at h
  split at h
  · cases h
  · split at h
    · cases h; exact ⟨rfl, rfl⟩
    · cases h

/-- Nor does overwriting contents on the heap. -/
theorem overwrite_buf {q q' : QueryBuf L} {new : Bytes} (hn : q.len > L) (h : q.overwrite new = some q') : q'.buf = q.buf := by
  rw [overwrite.eq_def] at h
  split at h
  · cases h; rfl
  · cases h

end QueryBuf

end Dnssec
