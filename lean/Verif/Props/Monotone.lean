import Verif.Proofs.Monotone
import Verif.Props.Validation

/-! # C91: more records never verify less -/

namespace Dnssec.Props

open Dnssec Spec

variable {dbg dbg' : Bool} {p : Platform} {fuel fuel' : Nat} {inp inp' : List RR} {v v' : Verified}

/-- **C91.** If all records of an accepted proof are in another accepted proof, everything verified by the first one is verified
by the second one. No conditions: the order of the records, repetitions and whatever else is in the second proof do not matter. -/
theorem C91_records (hsub : ∀ r ∈ inp, r ∈ inp') (h : verifyRRStream dbg p fuel inp = some (.ok v))
    (h' : verifyRRStream dbg' p fuel' inp' = some (.ok v')) (r : RR) (hr : r ∈ v.verifiedRrs) : r ∈ v'.verifiedRrs := by
  rw [C27_exact h] at hr
  rw [C27_exact h']
  exact ⟨authenticated_mono hsub (verifyRRStream_ok_needs h').1 hr.1, hr.2⟩

/-- **C91.** And the validity window and TTL are not extended, if the signatures over the key set of a zone (of supported algorithms)
all have the same times. Missing: proofs in which they do not (`C91_fails_window`). -/
theorem C91_window_partial (hsub : ∀ r ∈ inp, r ∈ inp') (hK : SameKeyTimes inp') (h : verifyRRStream dbg p fuel inp = some (.ok v))
    (h' : verifyRRStream dbg' p fuel' inp' = some (.ok v')) :
    v.validFrom ≤ v'.validFrom ∧ v'.expires ≤ v.expires ∧ v'.maxCacheTtl ≤ v.maxCacheTtl := by
  have hm := fun {s : RRSig} => used_mono (s := s) hsub (verifyRRStream_ok_needs h').1 hK
  obtain ⟨⟨⟨s1, u1, e1⟩, _⟩, ⟨⟨s2, u2, e2⟩, _⟩, _⟩ := C24_window h
  obtain ⟨⟨_, a1⟩, ⟨_, a2⟩, _⟩ := C24_window h'
  obtain ⟨⟨s3, u3, e3⟩, _⟩ := C25_ttl h
  obtain ⟨_, a3⟩ := C25_ttl h'
  refine ⟨?_, ?_, ?_⟩
  · obtain ⟨t, ht, b, _⟩ := hm u1
    have := a1 t ht
    simp only at this e1
    rw [← e1, b]
    exact this
  · obtain ⟨t, ht, _, b, _⟩ := hm u2
    have := a2 t ht
    simp only at this e2
    rw [← e2, b]
    exact this
  · obtain ⟨t, ht, _, _, b⟩ := hm u3
    have := a3 t ht
    simp only at this e3
    apply UInt32.le_iff_toNat_le.mpr
    rw [← e3, b]
    exact this

/-- A signature over the root's key set that expires earlier, with a lower TTL, than the others in the example stream. -/
def earlySig : RR := .rrsig ⟨⟨ascii "."⟩, 48, 8, 0, 600, 1900000000, 1100000000, 20326, ⟨ascii "."⟩, [1]⟩

/-- The example stream with that signature over the root's key set. -/
def earlyStream : List RR :=
  [wKey ".", earlySig] ++ wDelegation "." "c." 1 ++ [wA "a.c.", wSig "a.c." 1 2 "c."]

/-- **C91 is false** for the window: with another good signature over the root's key set in front, the same record counts as valid for longer. -/
theorem C91_fails_window (dbg : Bool) :
    verifyRRStream dbg wPlatform 5 earlyStream = some (.ok ⟨[wA "a.c."], 1100000000, 1900000000, 600⟩) ∧
    verifyRRStream dbg wPlatform 5 (wSig "." 48 0 "." :: earlyStream) = some (.ok ⟨[wA "a.c."], 1000000000, 2000000000, 3600⟩) := by
  cases dbg <;> decide +kernel

/-- **C36.** Two orders of the same records that are both accepted verify the same records. No conditions. -/
theorem C36_same_records (hp : inp.Perm inp') (h : verifyRRStream dbg p fuel inp = some (.ok v))
    (h' : verifyRRStream dbg' p fuel' inp' = some (.ok v')) (r : RR) : r ∈ v.verifiedRrs ↔ r ∈ v'.verifiedRrs :=
  ⟨C91_records (fun _ => hp.mem_iff.mp) h h' r, C91_records (fun _ => hp.mem_iff.mpr) h' h r⟩

/-- **C72.** Two proofs with the same records, some of them repeated any number of times, that are both accepted, verify the same records. No
conditions. -/
theorem C72_same_records (hm : ∀ r, r ∈ inp ↔ r ∈ inp') (h : verifyRRStream dbg p fuel inp = some (.ok v))
    (h' : verifyRRStream dbg' p fuel' inp' = some (.ok v')) (r : RR) : r ∈ v.verifiedRrs ↔ r ∈ v'.verifiedRrs :=
  ⟨C91_records (fun r => (hm r).mp) h h' r, C91_records (fun r => (hm r).mpr) h' h r⟩

/-- **C76.** If the combination of several proofs is accepted, it verifies everything that is verified by an accepted one among them. No
conditions: it does not matter how they were combined. -/
theorem C76_verifies_all (m : List RR) (hsub : ∀ r ∈ inp, r ∈ m) (h : verifyRRStream dbg p fuel inp = some (.ok v))
    (h' : verifyRRStream dbg' p fuel' m = some (.ok v')) : ∀ r ∈ v.verifiedRrs, r ∈ v'.verifiedRrs :=
  C91_records hsub h h'

theorem same_result (hm : ∀ r, r ∈ inp ↔ r ∈ inp') (hK : SameKeyTimes inp) (hv : verifyRRStream dbg p fuel inp = some (.ok v))
    (hv' : verifyRRStream dbg' p fuel' inp' = some (.ok v')) :
    (∀ r, r ∈ v.verifiedRrs ↔ r ∈ v'.verifiedRrs) ∧ v.validFrom = v'.validFrom ∧ v.expires = v'.expires ∧
    v.maxCacheTtl = v'.maxCacheTtl := by
  have hK' : SameKeyTimes inp' := fun s s' a b => hK s s' ((hm _).mpr a) ((hm _).mpr b)
  obtain ⟨a1, a2, a3⟩ := C91_window_partial (fun r => (hm r).mp) hK' hv hv'
  obtain ⟨b1, b2, b3⟩ := C91_window_partial (fun r => (hm r).mpr) hK hv' hv
  exact ⟨C72_same_records hm hv hv', Nat.le_antisymm a1 b1, Nat.le_antisymm b2 a2, UInt32.le_antisymm b3 a3⟩

/-- The conditions are met by the example stream and one that has another zone, with two signatures over its key set, too. -/
example : let more := wStream.reverse ++ wDelegation "." "d." 1 ++
      [.rrsig ⟨⟨ascii "d."⟩, 48, 8, 1, 3600, 2000000000, 1000000000, 20326, ⟨ascii "x."⟩, [1]⟩, wA "a.d.", wSig "a.d." 1 2 "d."]
    (∀ r ∈ wStream, r ∈ more) ∧ SameKeyTimes more ∧ ¬ OneKeySig more ∧
    verifyRRStream false wPlatform 5 wStream = some (.ok ⟨[wA "a.c."], 1000000000, 2000000000, 3600⟩) ∧
    verifyRRStream false wPlatform 5 more = some (.ok ⟨[wA "a.d.", wA "a.c."], 1000000000, 2000000000, 3600⟩) := by
  refine ⟨fun r hr => List.mem_append_left _ (List.mem_append_left _ (List.mem_reverse.mpr hr)), ?_, ?_, by decide +kernel, by decide +kernel⟩
  · have h : ∀ s ∈ (wStream.reverse ++ wDelegation "." "d." 1 ++
      [.rrsig ⟨⟨ascii "d."⟩, 48, 8, 1, 3600, 2000000000, 1000000000, 20326, ⟨ascii "x."⟩, [1]⟩, wA "a.d.", wSig "a.d." 1 2 "d."]).filterMap
        (fun | .rrsig s => some s | _ => none), s.inception = 1000000000 ∧ s.expiration = 2000000000 ∧ s.origTtl = 3600 := by decide +kernel
    intro s s' a b _ _ _ _ _
    obtain ⟨a1, a2, a3⟩ := h s (List.mem_filterMap.mpr ⟨_, a, rfl⟩)
    obtain ⟨b1, b2, b3⟩ := h s' (List.mem_filterMap.mpr ⟨_, b, rfl⟩)
    exact ⟨a1.trans b1.symm, a2.trans b2.symm, a3.trans b3.symm⟩
  · intro h
    have := h ⟨⟨ascii "d."⟩, 48, 8, 1, 3600, 2000000000, 1000000000, 20326, ⟨ascii "x."⟩, [1]⟩
      ⟨⟨ascii "d."⟩, 48, 8, 1, 3600, 2000000000, 1000000000, 20326, ⟨ascii "d."⟩, [1]⟩ (by decide +kernel) (by decide +kernel) rfl rfl rfl
    exact absurd this (by decide +kernel)

end Dnssec.Props
