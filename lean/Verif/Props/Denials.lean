import Verif.Proofs.Closed
import Verif.Props.Chain

/-! # C29: what an accepted wildcard record rests on, and of which zone it is -/

namespace Dnssec.Props

open Dnssec Spec

variable {dbg : Bool} {p : Platform} {fuel : Nat} {inp : List RR} {v : Verified}

/-- What RFC 5155 8.8 asks of an NSEC3 record: the hash of the name strictly between the two hashes, or at the owner, without the type. -/
def ProperNsec3 (p : Platform) (n : NSec3) (name : Bytes) (ty : UInt16) : Prop :=
  ∃ label rest start, n.name.bytes = label ++ 46 :: rest ∧ 46 ∉ label ∧ label.map toUpper = base32hex start ∧
    ((start = iteratedHash p.sha1 n.salt (nameWire name) n.hashIterations.toNat ∧ n.types.containsType ty = false) ∨
     (OctetLt start (iteratedHash p.sha1 n.salt (nameWire name) n.hashIterations.toNat) ∧
      OctetLt (iteratedHash p.sha1 n.salt (nameWire name) n.hashIterations.toNat) n.nextNameHash))

/-- The owner of the NSEC3 record is the hash of the name. -/
def HashOwner (p : Platform) (n : NSec3) (name : Bytes) : Prop :=
  ∃ label rest, n.name.bytes = label ++ 46 :: rest ∧ 46 ∉ label ∧
    label.map toUpper = base32hex (iteratedHash p.sha1 n.salt (nameWire name) n.hashIterations.toNat)

/-- `z` signed a wildcard expansion whose next closer name is `name`. -/
def Expands (S : SigCheck) (p : Platform) (inp : List RR) (z : Name) (name : Bytes) : Prop :=
  ∃ s, Reached S p inp z ∧ SignedBy S inp z s ∧ s.ty ≠ 43 ∧ Expanded s ∧ s.name.trailingNLabels (s.labels + 1) = some name

/-- **C29.** What an accepted wildcard expansion with the next closer name `name` rests on. It is an authenticated record that
properly denies the name, or is at that very name (or hash); and it is from below a zone with an expansion that has the same
next closer name. Missing: excluding records at that name that have the type (`C29_fails_for_existing_name`), and that the zone
is the one of the expansion (`C29_fails_for_shared_name`; it is if no other zone has an expansion with that next closer name)
by labels instead of text (`C29_fails_for_other_zone`). -/
theorem C29_used_partial (h : verifyRRStream dbg p fuel inp = some (.ok v)) (z : Name) (s : RRSig)
    (hz : Reached (codeCheck p) p inp z) (hs : SignedBy (codeCheck p) inp z s) (hds : s.ty ≠ 43) (hx : Expanded s)
    (name : Bytes) (hname : s.name.trailingNLabels (s.labels + 1) = some name) :
    ∃ z', Expands (codeCheck p) p inp z' name ∧
      ((∃ n, Authenticated (codeCheck p) p inp (.nsec n) ∧ (∃ pre, n.name.bytes = pre ++ z'.bytes) ∧
          (ProperNsec n name s.ty ∨ n.name.bytes.map foldCase = name.map foldCase)) ∨
       (∃ n, Authenticated (codeCheck p) p inp (.nsec3 n) ∧ (∃ pre, n.name.bytes = pre ++ z'.bytes) ∧
          n.hashAlgo = 1 ∧ n.flags = 0 ∧ n.hashIterations.toNat ≤ 2500 ∧
          (ProperNsec3 p n name s.ty ∨ HashOwner p n name))) := by
  obtain ⟨st, hF, _, _, hp, _⟩ := verifyRRStream_ok h
  have hneed : (⟨name, s.keyName, s.ty⟩ : Need) ∈ st.needs := by
    rw [hF.eff.needs]
    exact ⟨s, ⟨z, hz, hs⟩, hds, hx, rfl, rfl, hname⟩
  obtain ⟨o, ho, hon, hset⟩ :=
    proofLoop_ok (by simp) hp _ (List.mem_reverse.mpr ((p.sortNeeds_perm st.needs).mem_iff.mpr hneed))
  rw [List.mem_reverse, (p.sortNeeds_perm st.needs).mem_iff, hF.eff.needs] at ho
  obtain ⟨s', ⟨z', hz', hs'⟩, hd', hx', hzo, _, hname'⟩ := ho
  have hkn' : s'.keyName = z' := (mem_sigsBy.mp hs'.1).2.1
  have hauth : ∀ x, x ∈ st.res → Authenticated (codeCheck p) p inp x := by
    intro x hx
    obtain ⟨s', ⟨z', hz', hs'⟩, _, hx'⟩ := (hF.eff.res x).mp hx
    obtain ⟨a, b, c⟩ := mem_rrset.mp hx'
    obtain ⟨ksig, hk⟩ := hF.keys z' hz'
    exact ⟨z', ksig, s', hz', hk, hs', a, b, c⟩
  rw [hzo, hkn'] at hset
  refine ⟨z', ⟨s', hz', hs', hd', hx', hname'.trans (congrArg some hon)⟩, ?_⟩
  rcases hset with ⟨n, a, b, c⟩ | ⟨n, a, b, c⟩
  · exact Or.inl ⟨n, hauth _ a, (endsWith_iff _ _).mp b, C29_denial_partial n name s.ty c⟩
  · refine Or.inr ⟨n, hauth _ a, (endsWith_iff _ _).mp b, c.algo, c.flags, c.iterations, ?_⟩
    obtain ⟨label, rest, start, hash, e1, e2, e3, _, _, rfl, e4⟩ := c.denies
    rcases e4 with e4 | ⟨rfl | e4, e5⟩
    · exact Or.inl ⟨label, rest, start, e1, e2, e3, Or.inl e4⟩
    · exact Or.inr ⟨label, rest, e1, e2, e3⟩
    · exact Or.inl ⟨label, rest, start, e1, e2, e3, Or.inr ⟨e4, e5⟩⟩

/-- The address of `x.b.c.`, from `*.b.c.` in zone `b.c.`. -/
def sharedAddr : List RR := [wA "x.b.c.", wSig "x.b.c." 1 2 "b.c."]

/-- A text that zone `c.` signed for `*.b.c.`. -/
def sharedText : List RR := [.txt ⟨⟨ascii "x.b.c."⟩, [104, 105]⟩, wSig "x.b.c." 16 2 "c."]

/-- An NSEC record of zone `c.`, from `a.c.` to `z.c.`. -/
def sharedNsec : List RR := [.nsec ⟨⟨ascii "a.c."⟩, ⟨ascii "z.c."⟩, NSecTypeMask.fromTypes []⟩, wSig "a.c." 47 2 "c."]

/-- **C29 is false**: an NSEC record of another zone, not even below the zone's name as text, is accepted as denial, because a record
of the other zone needs the denial of the same name. Without that record the proof is rejected. -/
theorem C29_fails_for_shared_name :
    verifyRRStream false wPlatform 5 (wZone "." 0 ++ wDelegation "." "c." 1 ++ wDelegation "." "b.c." 2 ++ sharedAddr ++
      sharedNsec ++ sharedText) =
      some (.ok ⟨[wA "x.b.c.", .txt ⟨⟨ascii "x.b.c."⟩, [104, 105]⟩], 1000000000, 2000000000, 3600⟩) ∧
    verifyRRStream false wPlatform 5 (wZone "." 0 ++ wDelegation "." "c." 1 ++ wDelegation "." "b.c." 2 ++ sharedAddr ++
      sharedNsec) = some (.err .invalid) := by decide +kernel

/-- **C36 is false** here, too: with the delegations in the other order the same records are rejected. -/
theorem C36_fails_for_shared_name :
    verifyRRStream false wPlatform 5 (wZone "." 0 ++ wDelegation "." "c." 1 ++ wDelegation "." "b.c." 2 ++ sharedAddr ++
      sharedNsec ++ sharedText) =
      some (.ok ⟨[wA "x.b.c.", .txt ⟨⟨ascii "x.b.c."⟩, [104, 105]⟩], 1000000000, 2000000000, 3600⟩) ∧
    verifyRRStream false wPlatform 5 (wZone "." 0 ++ wDelegation "." "b.c." 2 ++ wDelegation "." "c." 1 ++ sharedAddr ++
      sharedNsec ++ sharedText) = some (.err .invalid) ∧
    (wZone "." 0 ++ wDelegation "." "c." 1 ++ wDelegation "." "b.c." 2 ++ sharedAddr ++ sharedNsec ++ sharedText).Perm
      (wZone "." 0 ++ wDelegation "." "b.c." 2 ++ wDelegation "." "c." 1 ++ sharedAddr ++ sharedNsec ++ sharedText) := by
  refine ⟨by decide +kernel, by decide +kernel, ?_⟩
  have : (wDelegation "." "c." 1 ++ wDelegation "." "b.c." 2).Perm (wDelegation "." "b.c." 2 ++ wDelegation "." "c." 1) :=
    List.perm_append_comm
  simpa [List.append_assoc] using
    (this.append_left (wZone "." 0)).append_right (sharedAddr ++ (sharedNsec ++ sharedText))

/-- The hypotheses of `C29_used_partial` are met by the stream with a denial, for the address of `x.c.` from `*.c.`. -/
example : let inp := wildStream "a.c." "z.c." [1]
    verifyRRStream false wPlatform 5 inp = some (.ok ⟨[wA "x.c."], 1000000000, 2000000000, 3600⟩) ∧
    Reached (codeCheck wPlatform) wPlatform inp ⟨ascii "c."⟩ ∧ SignedBy (codeCheck wPlatform) inp ⟨ascii "c."⟩ wildSig ∧
    wildSig.ty ≠ 43 ∧ Expanded wildSig ∧ wildSig.name.trailingNLabels (wildSig.labels + 1) = some (ascii "x.c.") := by
  refine ⟨by decide +kernel, reached_c ⟨wRootSig, by decide +kernel⟩ (by decide +kernel), ⟨by decide +kernel, ?_⟩, by decide,
    ⟨by decide, by decide⟩, by decide +kernel⟩
  show verifyRrsig _ _ _ _ = _
  decide +kernel

end Dnssec.Props
