import Verif.Spec.OwnWildcard
import Verif.Proofs.Decide
import Verif.Props.Chain
import Verif.Props.Validation

/-! # C107: wildcards under their own name -/

namespace Dnssec.Props

open Dnssec Dnssec.Spec

variable {dbg : Bool} {p : Platform} {fuel : Nat} {inp : List RR} {v : Verified} {z : Name} {s : RRSig} {rest : List Bytes}

/-- What such a signature covers is the wildcard's name as it is presented (a check of the specification of C20). -/
theorem C107_signed_owner (h : OwnWildcard s rest) (owner : Bytes) :
    SignedOwner s s.ty (ascii "*" :: rest) owner ↔ owner = wire (ascii "*" :: rest) := by
  constructor
  · intro ho
    cases ho with
    | exact => rfl
    | wildcard pre suf _ e hne hl =>
      have hlen := congrArg List.length e
      rw [h.2] at hl
      simp only [List.length_cons, List.length_append] at hlen
      cases pre with
      | nil => exact absurd rfl hne
      | cons a pre =>
        simp only [List.cons_append, List.cons.injEq] at e
        cases pre with
        | nil => rw [e.2]; rfl
        | cons b pre => simp only [List.length_cons] at hlen; omega
  · rintro rfl
    by_cases ht : s.ty = 47
    · exact .exact (Or.inr ht)
    · exact .wildcard [ascii "*"] rest ht rfl (by simp) h.2.symm

private theorem expanded_of_own (h : OwnWildcard s rest) (ht : s.ty ≠ 47) : Expanded s := by
  refine ⟨?_, ht⟩
  intro e
  have h1 := h.1.labels_eq
  have : s.labels.toNat = s.name.labels.toNat := by rw [e]
  rw [h1, h.2] at this
  simp only [List.length_cons] at this
  omega

/-- **C107, what is needed.** Records of a wildcard under its own name are accepted only with an authenticated NSEC or NSEC3 record that denies, in
the sense of the code, that very name. -/
theorem C107_needs_denial_of_itself (h : verifyRRStream dbg p fuel inp = some (.ok v)) (hz : Reached (codeCheck p) p inp z)
    (hs : SignedBy (codeCheck p) inp z s) (hw : OwnWildcard s rest) (hds : s.ty ≠ 43) (hnsec : s.ty ≠ 47) {r : RR} (hr : r ∈ inp)
    (hn : r.name = s.name) (ht : r.ty = s.ty) : Denied (codeCheck p) p inp s.name.bytes s.ty := by
  obtain ⟨pre, next, suf, e, hl, hd⟩ :=
    C28_wildcard_needs_denial h z s hz hs r hr hn ht hds (expanded_of_own hw hnsec) (ascii "*" :: rest) hw.1
  have hlen := congrArg List.length e
  rw [hw.2] at hl
  simp only [List.length_cons, List.length_append] at hlen
  cases pre with
  | nil =>
    simp only [List.nil_append] at e
    rw [← e, ← hw.1.bytes] at hd
    exact hd
  | cons a pre => simp only [List.length_cons] at hlen; omega

/-- **C107 is false**: every proof that contains records of a wildcard under the wildcard's own name, correctly signed by a zone with established
keys, and no NSEC or NSEC3 records (there are none in the answer to a question for that name), is rejected. -/
theorem C107_fails_without_denial (hz : Reached (codeCheck p) p inp z) (hs : SignedBy (codeCheck p) inp z s) (hw : OwnWildcard s rest)
    (hds : s.ty ≠ 43) (hnsec : s.ty ≠ 47) {r : RR} (hr : r ∈ inp) (hn : r.name = s.name) (ht : r.ty = s.ty)
    (hno : ∀ x ∈ inp, x.ty ≠ 47 ∧ x.ty ≠ 50) : verifyRRStream dbg p fuel inp ≠ some (.ok v) := by
  intro h
  rcases C107_needs_denial_of_itself h hz hs hw hds hnsec hr hn ht with ⟨n, ⟨_, _, _, _, _, _, hm, _⟩, _⟩ | ⟨n, ⟨_, _, _, _, _, _, hm, _⟩, _⟩
  · exact (hno _ hm).1 rfl
  · exact (hno _ hm).2 rfl

/-- **C107 (partial).** Accepted are proofs that contain, for each wildcard presented under its own name, the NSEC record of that name, if
it is not the last one of the zone, even though it says that the name exists. Missing: proofs without it, for which it is false. -/
theorem C107_accepted_partial (h1 : InOrder (codeCheck p) p inp) (h2 : RootDelegates (codeCheck p) inp)
    (h3 : ¬ SelfDelegation (codeCheck p) p inp) (h4 : ∃ r, Authenticated (codeCheck p) p inp r ∧ r.ty ≠ 43)
    (h5 : CommonWindow (codeCheck p) p inp)
    (h6 : ∀ z s, Reached (codeCheck p) p inp z → SignedBy (codeCheck p) inp z s → s.ty ≠ 43 → Expanded s →
      (∃ rest, OwnWildcard s rest) ∧ (∃ pre, s.name.bytes = pre ++ z.bytes) ∧
      ∃ n, Authenticated (codeCheck p) p inp (.nsec n) ∧ n.name = s.name ∧ TextLt n.name.bytes n.nextName.bytes) :
    ∃ fuel v, verifyRRStream dbg p fuel inp = some (.ok v) := by
  refine C56_complete h1 h2 h3 h4 h5 ?_
  intro z s hz hs ht hx name hname
  obtain ⟨⟨rest, hw⟩, hpre, n, ha, hn, hlt⟩ := h6 z s hz hs ht hx
  have hle := hw.1.length_le
  simp only [List.length_cons] at hle
  have hsl : (s.labels + 1).toNat = rest.length + 1 := by
    rw [UInt8.toNat_add, hw.2]
    change (rest.length + 1) % 256 = _
    omega
  rw [hw.1.trailing, hsl, if_pos (by simp)] at hname
  have hname' : name = s.name.bytes := by
    rw [← Option.some.inj hname, hw.1.bytes]
    simp
  subst hname'
  refine Or.inl ⟨n, ha, ?_, Or.inr ⟨Or.inl (by rw [hn]), ?_⟩⟩
  · rw [hn]; exact hpre
  · rw [← hn]; exact hlt

/-! ## Examples -/

/-- The address of `*.c.`, signed as RFC 4034 says, and perhaps the NSEC record of that name. -/
def ownStream (nsec : List RR) : List RR :=
  wZone "." 0 ++ wDelegation "." "c." 1 ++ [wA "*.c.", wSig "*.c." 1 1 "c."] ++ nsec

def ownNsec : List RR := [.nsec ⟨⟨ascii "*.c."⟩, ⟨ascii "x.c."⟩, NSecTypeMask.fromTypes [1]⟩, wSig "*.c." 47 1 "c."]

/-- **C107 is false**: a proof of the address of `*.c.` is rejected; with the NSEC record of `*.c.`, which says that it has an
address, it is accepted. -/
theorem C107_fails (dbg : Bool) :
    verifyRRStream dbg wPlatform 5 (ownStream []) = some (.err .invalid) ∧
    verifyRRStream dbg wPlatform 5 (ownStream ownNsec) = some (.ok ⟨[wA "*.c."], 1000000000, 2000000000, 3600⟩) ∧
    (NSecTypeMask.fromTypes [1]).containsType 1 = true := by
  refine ⟨by cases dbg <;> decide +kernel, by cases dbg <;> decide +kernel, by decide +kernel⟩

/-- The conditions of `C107_fails_without_denial` hold in the first of these proofs, those about the signature also in the second. -/
example (nsec : List RR) (hn : nsec = [] ∨ nsec = ownNsec) : ∃ s, Reached (codeCheck wPlatform) wPlatform (ownStream nsec) ⟨ascii "c."⟩ ∧
    SignedBy (codeCheck wPlatform) (ownStream nsec) ⟨ascii "c."⟩ s ∧ OwnWildcard s [ascii "c"] ∧ s.ty = 1 ∧ wA "*.c." ∈ ownStream nsec ∧
    (wA "*.c.").name = s.name ∧ ∀ x ∈ ownStream [], x.ty ≠ 47 ∧ x.ty ≠ 50 := by
  rcases hn with rfl | rfl
  all_goals
    refine ⟨⟨⟨ascii "*.c."⟩, 1, 8, 1, 3600, 2000000000, 1000000000, 20326, ⟨ascii "c."⟩, [1]⟩, ?_, ⟨by decide +kernel, ?_⟩, ⟨by decide, rfl⟩, rfl,
      by decide +kernel, rfl, by decide +kernel⟩
    · exact reached_c ⟨wRootSig, by decide +kernel⟩
        ⟨⟨⟨ascii "c."⟩, 43, 8, 1, 3600, 2000000000, 1000000000, 20326, ⟨ascii "."⟩, [1]⟩, by decide +kernel, rfl, rfl, by decide +kernel⟩
    · simp only [codeCheck]
      decide +kernel

end Dnssec.Props
