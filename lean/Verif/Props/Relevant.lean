import Verif.Proofs.Relevant
import Verif.Props.Honest

/-! # C71, C72: padding and repetitions -/

namespace Dnssec.Props

open Dnssec Spec

variable {inp inp' : List RR}

/-! ## C71 -/

open Classical in
/-- **C71.** Two proofs with the same relevant records, in the same order, have the same outcome: the same records, times and TTL, the
same error, or no outcome in either case. -/
theorem C71_only_relevant_records_matter
    (h : inp.filter (fun r => decide (Relevant inp r)) = inp'.filter (fun r => decide (Relevant inp' r)))
    (dbg : Bool) (p : Platform) (fuel : Nat) : verifyRRStream dbg p fuel inp = verifyRRStream dbg p fuel inp' := by
  rw [← verifyRRStream_keep (K := fun r => decide (Relevant inp r)) dbg p fuel (fun r _ hr => decide_eq_true hr), h,
    verifyRRStream_keep dbg p fuel (fun r _ hr => decide_eq_true hr)]

open Classical in
/-- **C71.** A record that is not relevant can be put in anywhere. -/
theorem C71_padding {before after : List RR} {r : RR} (h : ¬ Relevant (before ++ r :: after) r) (dbg : Bool) (p : Platform) (fuel : Nat) :
    verifyRRStream dbg p fuel (before ++ r :: after) = verifyRRStream dbg p fuel (before ++ after) := by
  have hK : ∀ x ∈ before ++ r :: after, Relevant (before ++ r :: after) x → (fun x => decide (x ≠ r)) x = true :=
    fun x _ hx => decide_eq_true (fun e => h (e ▸ hx))
  rw [← verifyRRStream_keep (K := fun x => decide (x ≠ r)) dbg p fuel hK]
  have hK' : ∀ x ∈ before ++ after, Relevant (before ++ after) x → (fun x => decide (x ≠ r)) x = true := by
    intro x hx hr
    refine hK x ?_ (relevant_mono (fun y hy => ?_) hr)
    · simp only [List.mem_append, List.mem_cons] at hx ⊢; exact hx.imp_right Or.inr
    · simp only [List.mem_append, List.mem_cons] at hy ⊢; exact hy.imp_right Or.inr
  rw [← verifyRRStream_keep (K := fun x => decide (x ≠ r)) (inp := before ++ after) dbg p fuel hK']
  simp

/-- **C71.** In particular, anybody may add records to a proof that are not signatures and that no signature in the proof covers. -/
theorem C71_unsigned_records {before after : List RR} {r : RR} (hr : r.ty ≠ 46)
    (h : ∀ s, RR.rrsig s ∈ before ++ after → ¬ (r.name = s.name ∧ r.ty = s.ty)) (dbg : Bool) (p : Platform) (fuel : Nat) :
    verifyRRStream dbg p fuel (before ++ r :: after) = verifyRRStream dbg p fuel (before ++ after) := by
  apply C71_padding
  rintro ⟨s, h1, _, h3⟩
  have hne : r ≠ RR.rrsig s := fun e => hr (by rw [e]; rfl)
  have h1 : RR.rrsig s ∈ before ++ after := by
    simp only [List.mem_append, List.mem_cons] at h1 ⊢
    rcases h1 with h1 | h1 | h1
    · exact Or.inl h1
    · exact absurd h1.symm hne
    · exact Or.inr h1
  exact (h3.resolve_left hne |> h s h1)

/-- **C71.** Nor does it matter what is in the proof about a zone for which there are no DS records: its keys and the records it signs may as
well be left out (if no other zone signs them). -/
theorem C71_zones_without_delegation {before after : List RR} {r : RR} {z : Name} (hz : z ≠ ⟨ascii "."⟩)
    (hds : ∀ d, RR.ds d ∈ before ++ r :: after → d.name ≠ z)
    (h : ∀ s, RR.rrsig s ∈ before ++ r :: after → r = RR.rrsig s ∨ (r.name = s.name ∧ r.ty = s.ty) → sigZone s = z)
    (dbg : Bool) (p : Platform) (fuel : Nat) :
    verifyRRStream dbg p fuel (before ++ r :: after) = verifyRRStream dbg p fuel (before ++ after) := by
  apply C71_padding
  rintro ⟨s, h1, h2, h3⟩
  have hd := h s h1 h3 ▸ h2
  cases hd with
  | root => exact hz rfl
  | step t d _ _ _ h4 h5 => exact hds d h4 h5

/-- A proof with padding: an address nobody signed, and the keys and an address of a zone without a delegation. The second theorem and the
last one apply to it. -/
def padded : List RR := wStream ++ [wA "b.c."] ++ wZone "d." 1 ++ [wA "a.d.", wSig "a.d." 1 2 "d."]

example : verifyRRStream false wPlatform 5 padded = verifyRRStream false wPlatform 5 wStream ∧
    verifyRRStream false wPlatform 5 wStream = some (.ok ⟨[wA "a.c."], 1000000000, 2000000000, 3600⟩) := by
  refine ⟨?_, by decide +kernel⟩
  have mem : ∀ (l : List RR) (P : RRSig → Prop), (∀ s ∈ l.filterMap (fun | .rrsig s => some s | _ => none), P s) →
      ∀ s, RR.rrsig s ∈ l → P s := fun l P h s hs => h s (List.mem_filterMap.mpr ⟨_, hs, rfl⟩)
  have memDs : ∀ (l : List RR) (P : DS → Prop), (∀ s ∈ l.filterMap (fun | .ds s => some s | _ => none), P s) →
      ∀ s, RR.ds s ∈ l → P s := fun l P h s hs => h s (List.mem_filterMap.mpr ⟨_, hs, rfl⟩)
  have e1 : verifyRRStream false wPlatform 5 (wStream ++ wA "b.c." :: (wZone "d." 1 ++ [wA "a.d.", wSig "a.d." 1 2 "d."])) =
      verifyRRStream false wPlatform 5 (wStream ++ (wZone "d." 1 ++ [wA "a.d.", wSig "a.d." 1 2 "d."])) :=
    C71_unsigned_records (by decide) (mem _ _ (by decide +kernel)) _ _ _
  have last : ∀ (pre : List RR) (post : List RR) (r : RR), wStream ++ r :: post = pre →
      (∀ d ∈ pre.filterMap (fun | .ds s => some s | _ => none), d.name ≠ ⟨ascii "d."⟩) →
      (∀ s ∈ pre.filterMap (fun | .rrsig s => some s | _ => none), r = RR.rrsig s ∨ (r.name = s.name ∧ r.ty = s.ty) → sigZone s = ⟨ascii "d."⟩) →
      verifyRRStream false wPlatform 5 pre = verifyRRStream false wPlatform 5 (wStream ++ post) := by
    rintro pre post r rfl h1 h2
    exact C71_zones_without_delegation (z := ⟨ascii "d."⟩) (by decide) (memDs _ _ h1) (mem _ _ h2) _ _ _
  have e2 := last _ (wSig "d." 48 1 "d." :: [wA "a.d.", wSig "a.d." 1 2 "d."]) (wKey "d.") rfl (by decide +kernel) (by decide +kernel)
  have e3 := last _ [wA "a.d.", wSig "a.d." 1 2 "d."] (wSig "d." 48 1 "d.") rfl (by decide +kernel) (by decide +kernel)
  have e4 := last _ [wSig "a.d." 1 2 "d."] (wA "a.d.") rfl (by decide +kernel) (by decide +kernel)
  have e5 := last _ [] (wSig "a.d." 1 2 "d.") rfl (by decide +kernel) (by decide +kernel)
  rw [List.append_nil] at e5
  exact (show padded = _ by simp [padded]; rfl) ▸ e1.trans (e2.trans (e3.trans (e4.trans e5)))

/-- Padding is not always harmless: with a DS record and a signature of the root for it the zone matters. -/
example : verifyRRStream false wPlatform 5 (padded ++ [wDs "d.", wSig "d." 43 1 "."]) =
    some (.ok ⟨[wA "a.d.", wA "a.c."], 1000000000, 2000000000, 3600⟩) := by decide +kernel

/-! ## C72 -/

/-- **C72.** If all signatures over the key set of a zone (of supported algorithms) have the same times and TTL, two proofs with the
same records, some of them repeated any number of times, that are both accepted, give the same result. Missing: the window and TTL of other
proofs, where the order of the signatures matters (`C36_fails_window`); for the records no condition is needed (`C72_same_records`). -/
theorem C72_same_result_partial (hm : ∀ r, r ∈ inp ↔ r ∈ inp') (hS : SameKeyTimes inp) {dbg : Bool} {p : Platform} {fuel fuel' : Nat}
    {v v' : Verified} (hv : verifyRRStream dbg p fuel inp = some (.ok v)) (hv' : verifyRRStream dbg p fuel' inp' = some (.ok v')) :
    (∀ r, r ∈ v.verifiedRrs ↔ r ∈ v'.verifiedRrs) ∧ v.validFrom = v'.validFrom ∧ v.expires = v'.expires ∧
    v.maxCacheTtl = v'.maxCacheTtl :=
  same_result hm hS hv hv'

/-- **C72.** Repeating signatures makes no difference for acceptance under the conditions of `C36_acceptance_partial`. Missing: the
excluded proofs, and repetitions of other records, which are not harmless. -/
theorem C72_acceptance_partial (h : SameUpToRepeatedSigs inp inp') (h0 : NoSigsOverSigs inp) (hT : NoTagCollision inp)
    {dbg : Bool} {p : Platform} (hK : KeySigsAgree (codeCheck p) p inp) (hS : SameKeyTimes inp)
    (hu : UniformDenials (codeCheck p) p inp) :
    (∃ fuel v, verifyRRStream dbg p fuel inp = some (.ok v)) ↔ (∃ fuel v, verifyRRStream dbg p fuel inp' = some (.ok v)) :=
  have h := SameFor.of_repeated h h0
  ⟨accepts_perm h hT hK hS hu, accepts_perm h.symm (hT.perm h) (hK.perm h hT) (hS.perm h) ((uniformDenials_perm h hT hK).mp hu)⟩

/-- The conditions hold of the example stream with a wildcard, to which copies of all its signatures are added. -/
example : let more := wildStream "a.c." "z.c." [1] ++ (wildStream "a.c." "z.c." [1]).filter (fun r => r.ty = 46)
    SameUpToRepeatedSigs (wildStream "a.c." "z.c." [1]) more ∧ NoSigsOverSigs (wildStream "a.c." "z.c." [1]) ∧
    more.length = 15 ∧ (∃ fuel v, verifyRRStream false wPlatform fuel more = some (.ok v)) := by
  obtain ⟨hT, h1, hu, _⟩ := wildStream_conditions
  have h0 : NoSigsOverSigs (wildStream "a.c." "z.c." [1]) := by
    have : ∀ s ∈ (wildStream "a.c." "z.c." [1]).filterMap (fun | .rrsig s => some s | _ => none), s.ty ≠ 46 := by decide +kernel
    exact fun s hs => this s (List.mem_filterMap.mpr ⟨_, hs, rfl⟩)
  have h : SameUpToRepeatedSigs (wildStream "a.c." "z.c." [1])
      (wildStream "a.c." "z.c." [1] ++ (wildStream "a.c." "z.c." [1]).filter (fun r => r.ty = 46)) := by
    refine ⟨?_, fun s => ?_⟩
    · have : (wildStream "a.c." "z.c." [1]).filter (fun r => decide (r.ty ≠ 46) && decide (r.ty = 46)) = [] :=
        List.filter_eq_nil_iff.mpr (by simp)
      rw [List.filter_append, List.filter_filter, this, List.append_nil]
    · simp only [List.mem_append, List.mem_filter, decide_eq_true_eq]
      exact ⟨Or.inl, fun h => h.elim id And.left⟩
  exact ⟨h, h0, by decide +kernel, (C72_acceptance_partial h h0 hT h1.agree h1.times hu).mp
    ⟨5, ⟨[wA "x.c."], 1000000000, 2000000000, 3600⟩, by decide +kernel⟩⟩

/-- **C72 is false** for other records: a correctly signed world whose proof is accepted, and rejected if its address record is repeated. RFC 4034 6.3 allows to
treat repetitions as an error, or to remove them; the repeated record is put into the signed data twice. -/
theorem C72_fails_for_repeated_record (dbg : Bool) : exWorld.Signed lenPlatform ∧ wA "x.c." ∈ exWorld.records ∧
    (∃ v, verifyRRStream dbg lenPlatform 5 exWorld.records = some (.ok v) ∧ v.verifiedRrs = [wA "x.c."]) ∧
    verifyRRStream dbg lenPlatform 5 (exWorld.records ++ [wA "x.c."]) = some (.err .invalid) := by
  refine ⟨exSigned, by decide +kernel, ⟨⟨[wA "x.c."], 1000000000, 2000000000, 3600⟩, ?_, rfl⟩, ?_⟩
  · cases dbg <;> decide +kernel
  · cases dbg <;> decide +kernel

end Dnssec.Props
