import Verif.Proofs.ResolveOrder
import Verif.Proofs.Simple
import Verif.Props.Monotone
import Verif.Props.Resolve

/-! # C116: answers and the order of the records in the proof -/

namespace Dnssec.Props

open Dnssec.Spec

variable {dbg dbg' : Bool} {p : Platform} {fuel fuel' : Nat} {inp inp' : List RR} {v v' : Verified} {n : Name}

/-- **C116.** Two orders of the same records that are both accepted give the same answers, if there is at most one way on from each name
that is visited: `resolve_name` returns the same records (in some order), or nothing at all if it does not return. Missing: names with
several ways on, for which this is false, even in ordinary zones (next theorem). -/
theorem C116_same_answers_partial (hp : inp.Perm inp') (h : verifyRRStream dbg p fuel inp = some (.ok v))
    (h' : verifyRRStream dbg' p fuel' inp' = some (.ok v'))
    (hone : ∀ k m, Spec.Chain v.verifiedRrs n k m → OneAlias v.verifiedRrs m) (f : Nat) :
    (∀ l, resolveName v.verifiedRrs f n = some (.ok l) → ∃ l', resolveName v'.verifiedRrs f n = some (.ok l') ∧ l.Perm l') ∧
    (resolveName v.verifiedRrs f n = none → resolveName v'.verifiedRrs f n = none) := by
  have hm := C36_same_records hp h h'
  have hv : v.verifiedRrs.Perm v'.verifiedRrs :=
    (List.perm_ext_iff_of_nodup (C23_contents h).1 (C23_contents h').1).mpr hm
  exact ⟨fun l hl => resolveName_perm hv hone hl, fun hl => resolveName_perm_none hm hone hl⟩

/-- The zone `c.` has moved `d.c.` to `e.c.`, and `ad.c.` to `f.c.`. There are addresses at `x.f.c.` and at `x.ae.c.`. -/
def movedTwice : List RR := [wDname "ad.c." "f.c.", wDname "d.c." "e.c.", wA "x.f.c.", wA "x.ae.c."]

/-- The same records, the two DNAMEs swapped. -/
def movedSwapped : List RR := [wDname "d.c." "e.c.", wDname "ad.c." "f.c.", wA "x.f.c.", wA "x.ae.c."]

/-- **C116 is false** of an ordinary zone with two DNAMEs, neither below the other: `x.ad.c.` is below `ad.c.` and so at `x.f.c.`. In one
order of the records of the proof this is what `resolve_name` says, in the other it answers with the address of an unrelated name. -/
theorem C116_fails_for_two_dnames (dbg : Bool) : ∃ fuel v fuel' v', (cStream movedTwice).Perm (cStream movedSwapped) ∧
    verifyRRStream dbg wPlatform fuel (cStream movedTwice) = some (.ok v) ∧
    verifyRRStream dbg wPlatform fuel' (cStream movedSwapped) = some (.ok v') ∧
    resolveName v.verifiedRrs 1 ⟨ascii "x.ad.c."⟩ = some (.ok [wA "x.f.c."]) ∧
    resolveName v'.verifiedRrs 1 ⟨ascii "x.ad.c."⟩ = some (.ok [wA "x.ae.c."]) := by
  refine ⟨5, ⟨movedTwice, 1000000000, 2000000000, 3600⟩, 5, ⟨movedSwapped, 1000000000, 2000000000, 3600⟩, ?_, ?_, ?_, ?_, ?_⟩
  · refine .append_left _ ?_
    simp only [cSigned, movedTwice, movedSwapped, List.flatMap_cons]
    exact List.perm_append_comm_assoc _ _ _
  · cases dbg <;> decide +kernel
  · cases dbg <;> decide +kernel
  · decide +kernel
  · decide +kernel

/-- The zone without the second DNAME meets the hypotheses of `C116_same_answers_partial`, with an alias. -/
example (dbg : Bool) : let inp := cStream [wDname "ad.c." "f.c.", wA "x.f.c."]; let inp' := cStream [wA "x.f.c.", wDname "ad.c." "f.c."]
    ∃ v v', inp.Perm inp' ∧ verifyRRStream dbg wPlatform 5 inp = some (.ok v) ∧ verifyRRStream dbg wPlatform 5 inp' = some (.ok v') ∧
      (∀ k m, Spec.Chain v.verifiedRrs ⟨ascii "x.ad.c."⟩ k m → OneAlias v.verifiedRrs m) ∧
      resolveName v.verifiedRrs 1 ⟨ascii "x.ad.c."⟩ = some (.ok [wA "x.f.c."]) := by
  refine ⟨⟨[wDname "ad.c." "f.c.", wA "x.f.c."], 1000000000, 2000000000, 3600⟩,
    ⟨[wA "x.f.c.", wDname "ad.c." "f.c."], 1000000000, 2000000000, 3600⟩, ?_, ?_, ?_, ?_, ?_⟩
  · refine .append_left _ ?_
    simp only [cSigned, List.flatMap_cons, List.flatMap_nil, List.append_nil]
    exact List.perm_append_comm
  · cases dbg <;> decide +kernel
  · cases dbg <;> decide +kernel
  · intro k m _
    refine ⟨?_, ?_⟩
    · intro c c' h
      simp [wDname, wA] at h
    · intro d d' h h' _ _
      simp [wDname, wA] at h h'
      rw [h, h']
  · decide +kernel

end Dnssec.Props
