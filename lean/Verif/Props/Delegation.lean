import Verif.Spec.Delegation
import Verif.Props.Existing
import Verif.Props.Denials
import Verif.Props.Misc

/-! # C101: NSEC records at delegations -/

namespace Dnssec.Props

open Dnssec Spec

variable {dbg : Bool} {p : Platform} {inp : List RR} {fuel : Nat} {v : Verified}

theorem labelsLt_below {z nx : List Bytes} (h : LabelsLt z nx) :
    ∀ m, (¬ ∃ pre suf, nx = pre ++ suf ∧ pre.map (·.map foldCase) = z.map (·.map foldCase)) → LabelsLt (z ++ m) nx := by
  induction h with
  | nil l ls => intro m hn; exact absurd ⟨[], l :: ls, rfl, rfl⟩ hn
  | head a b as bs h => intro m _; exact .head a b _ bs h
  | tail a b as bs h _ ih =>
    intro m hn
    refine .tail a b _ bs h (ih m ?_)
    rintro ⟨pre, suf, rfl, e⟩
    exact hn ⟨b :: pre, suf, rfl, by simp only [List.map_cons]; rw [h, e]⟩

theorem labelsLt_longer : ∀ (z : List Bytes) (x : Bytes) (m : List Bytes), LabelsLt z (z ++ x :: m)
  | [], x, m => .nil x m
  | a :: z, x, m => .tail a a _ _ rfl (labelsLt_longer z x m)

/-- **C101 is false of every delegation:** the parent's NSEC record denies, in the sense of the code, every type at every name below the
child's. -/
theorem C101_fails_denies_everything {child : Name} {n : NSec} (h : DelegationNsec child n) {name : Bytes} (hb : Below child name) (ty : UInt16) :
    NsecDenies n name ty := by
  obtain ⟨ho, _, _, zone, labels, hz, hl, hlt, hnw⟩ := h
  obtain ⟨x, pre, zone', hz', hn⟩ := hb
  have e := hz'.unique hz
  subst e
  have hc : child = ⟨child.bytes⟩ := rfl
  rw [hc] at hz
  refine Or.inr ⟨Or.inr ?_, ?_⟩
  · rw [ho]
    refine ((C17_texts _ _).2 _ _ hz hn).mpr ?_
    unfold CanonicalLt
    have : (x :: (pre ++ zone')).reverse = zone'.reverse ++ (pre.reverse ++ [x]) := by simp
    rw [this]
    cases hp : pre.reverse with
    | nil => exact labelsLt_longer _ _ _
    | cons y ys => exact labelsLt_longer _ _ _
  · refine ((C17_texts _ _).2 _ _ hn hl).mpr ?_
    unfold CanonicalLt
    have : (x :: (pre ++ zone')).reverse = zone'.reverse ++ (pre.reverse ++ [x]) := by simp
    rw [this]
    refine labelsLt_below hlt _ ?_
    rintro ⟨a, b, e1, e2⟩
    refine hnw ⟨b.reverse, a.reverse, ?_, ?_⟩
    · rw [← List.reverse_append, ← e1, List.reverse_reverse]
    · rw [List.map_reverse, e2, List.map_reverse, List.reverse_reverse]

/-- **C101 is false:** a proof in which all else is in order, and in which wildcard records are presented at any names below those of their zones, is accepted
with the NSEC records that the parents of these zones have at the delegations. Whether the names exist makes no difference. -/
theorem C101_fails_in_every_child (h1 : InOrder (codeCheck p) p inp) (h2 : RootDelegates (codeCheck p) inp)
    (h3 : ¬ SelfDelegation (codeCheck p) p inp) (h4 : ∃ r, Authenticated (codeCheck p) p inp r ∧ r.ty ≠ 43)
    (h5 : CommonWindow (codeCheck p) p inp)
    (h6 : ∀ z s, Reached (codeCheck p) p inp z → SignedBy (codeCheck p) inp z s → s.ty ≠ 43 → Expanded s →
      ∃ name n, NextCloser s name ∧ Below z name ∧ DelegationNsec z n ∧ Authenticated (codeCheck p) p inp (.nsec n)) :
    ∃ fuel v, verifyRRStream dbg p fuel inp = some (.ok v) := by
  refine C56_complete h1 h2 h3 h4 h5 ?_
  intro z s hz hs ht hx name' hname
  obtain ⟨name, n, ⟨pre, next, suf, hl, hlen, rfl⟩, hb, hd, ha⟩ := h6 z s hz hs ht hx
  have hsl : (s.labels + 1).toNat = s.labels.toNat + 1 := by
    have hle := hl.length_le
    rw [UInt8.toNat_add]
    change (s.labels.toNat + 1) % 256 = _
    simp only [List.length_append, List.length_cons] at hle
    omega
  rw [hl.trailing, hsl, if_pos (by simp; omega)] at hname
  have : name' = text (next :: suf) := by
    rw [← Option.some.inj hname, List.length_append, List.length_cons, hlen,
      show pre.length + (s.labels.toNat + 1) - (s.labels.toNat + 1) = pre.length by omega]
    simp
  subst this
  exact Or.inl ⟨n, ha, ⟨[], by rw [hd.owner]; rfl⟩, C101_fails_denies_everything hd hb s.ty⟩

/-- **C101.** What holds: the record that an accepted expansion rests on does not come from above its zone: its
owner is not a proper ancestor of the zone (of an expansion with the same next closer name). So the NSEC records of
delegations further up are never what the acceptance rests on. Missing: the delegation of the zone itself
(`C101_fails_in_every_child`). (The hypotheses are those of `C29_used_partial`, with the example there.) -/
theorem C101_ancestors_partial (h : verifyRRStream dbg p fuel inp = some (.ok v)) (z : Name) (s : RRSig)
    (hz : Reached (codeCheck p) p inp z) (hs : SignedBy (codeCheck p) inp z s) (hds : s.ty ≠ 43) (hx : Expanded s)
    (name : Bytes) (hname : s.name.trailingNLabels (s.labels + 1) = some name) :
    ∃ z' owner, Expands (codeCheck p) p inp z' name ∧
      ((∃ n, Authenticated (codeCheck p) p inp (.nsec n) ∧ n.name = owner ∧
          (ProperNsec n name s.ty ∨ n.name.bytes.map foldCase = name.map foldCase)) ∨
       (∃ n, Authenticated (codeCheck p) p inp (.nsec3 n) ∧ n.name = owner)) ∧
      ∀ labels, HasLabels owner labels → ∀ x pre, ¬ HasLabels z' (x :: (pre ++ labels)) := by
  have key : ∀ (z' owner : Name), (∃ pre, owner.bytes = pre ++ z'.bytes) →
      ∀ labels, HasLabels owner labels → ∀ x pre, ¬ HasLabels z' (x :: (pre ++ labels)) := by
    rintro z' owner ⟨q, hq⟩ labels ho x pre hzl
    have hlen := congrArg List.length hq
    have hx := (hzl.labels x (List.mem_cons_self ..)).1
    have hx : 0 < x.length := List.length_pos_iff.mpr hx
    rw [ho.bytes, hzl.bytes] at hlen
    have hz2 : text (x :: (pre ++ labels)) = x ++ [46] ++ ((pre.map (fun l => l ++ [46])).flatten ++ (labels.map (fun l => l ++ [46])).flatten) := by
      simp [text]
    rw [hz2] at hlen
    by_cases e : labels = []
    · subst e
      simp [text] at hlen
      omega
    · rw [text, if_neg e] at hlen
      simp only [List.length_append, List.length_cons, List.length_nil] at hlen
      omega
  obtain ⟨z', he, ⟨n, ha, hp, hd⟩ | ⟨n, ha, hp, hd⟩⟩ := C29_used_partial h z s hz hs hds hx name hname
  · exact ⟨z', n.name, he, Or.inl ⟨n, ha, rfl, hd⟩, key z' n.name hp⟩
  · exact ⟨z', n.name, he, Or.inr ⟨n, ha, rfl⟩, key z' n.name hp⟩

/-- The NSEC record of `c.` at the delegation to `b.c.`. -/
def cutNsec : NSec := ⟨⟨ascii "b.c."⟩, ⟨ascii "z.c."⟩, NSecTypeMask.fromTypes [2, 43, 46, 47]⟩

/-- The address of `*.b.c.` presented at `x.b.c.`, with that record. -/
def cutStream : List RR :=
  wZone "." 0 ++ wDelegation "." "c." 1 ++ wDelegation "c." "b.c." 2 ++ [wA "x.b.c.", wSig "x.b.c." 1 2 "b.c.", .nsec cutNsec, wSig "b.c." 47 2 "c."]

theorem cutNsec_delegation : DelegationNsec ⟨ascii "b.c."⟩ cutNsec := by
  refine ⟨rfl, by decide +kernel, by decide +kernel, [ascii "b", ascii "c"], [ascii "z", ascii "c"], by decide, by decide, ?_, ?_⟩
  · exact .tail _ _ _ _ rfl (.head _ _ _ _ (by decide +kernel))
  · rintro ⟨pre, suf, e, h⟩
    have hlen := congrArg List.length h
    have hlen' := congrArg List.length e
    simp only [List.length_map, List.length_append, List.length_cons, List.length_nil] at hlen hlen'
    have hp : pre = [] := List.length_eq_zero_iff.mp (by omega)
    subst hp
    rw [List.nil_append] at e
    subst e
    revert h
    decide +kernel

/-- The hypotheses are met by a proof which is accepted, with the one expansion in it and nothing else (without the record it is
rejected). -/
example : verifyRRStream true wPlatform 5 cutStream = some (.ok ⟨[wA "x.b.c."], 1000000000, 2000000000, 3600⟩) ∧
    Below ⟨ascii "b.c."⟩ (ascii "x.b.c.") ∧ DelegationNsec ⟨ascii "b.c."⟩ cutNsec ∧
    verifyRRStream true wPlatform 5 (cutStream.take (cutStream.length - 2)) = some (.err .invalid) :=
  ⟨by decide +kernel, ⟨ascii "x", [], [ascii "b", ascii "c"], by decide, by decide⟩, cutNsec_delegation, by decide +kernel⟩

/-- The NSEC3 record of `c.` with a hash that is written `0…0g`, and next hash `121…`. -/
def hashNsec3 : NSec3 :=
  ⟨⟨ascii "0000000000000000000000000000000g.c."⟩, 1, 0, 0, [], 121 :: List.replicate 19 0, NSecTypeMask.fromTypes [2, 43, 46]⟩

/-- The address of `*.g.c.` presented at `x.g.c.`, with that record. -/
def hashStream : List RR :=
  wZone "." 0 ++ wDelegation "." "c." 1 ++ wDelegation "c." "g.c." 2 ++
    [wA "x.g.c.", wSig "x.g.c." 1 2 "g.c.", .nsec3 hashNsec3, wSig "0000000000000000000000000000000g.c." 50 2 "c."]

/-- **C101 is false** for NSEC3 as well: the NSEC3 records of `c.` whose hash is written with a `g` at the end are taken for ones of `g.c.`; here one
is the denial for a wildcard of `g.c.`. -/
theorem C101_fails_nsec3 (dbg : Bool) :
    verifyRRStream dbg wPlatform 5 hashStream = some (.ok ⟨[wA "x.g.c."], 1000000000, 2000000000, 3600⟩) ∧
    (∃ s, SignedBy (codeCheck wPlatform) hashStream ⟨ascii "c."⟩ s ∧ s.name = hashNsec3.name ∧ s.ty = 50) ∧
    HasLabels hashNsec3.name [ascii "0000000000000000000000000000000g", ascii "c"] ∧ HasLabels ⟨ascii "g.c."⟩ [ascii "g", ascii "c"] ∧
    verifyRRStream dbg wPlatform 5 (hashStream.take (hashStream.length - 2)) = some (.err .invalid) := by
  refine ⟨by cases dbg <;> decide +kernel,
    ⟨⟨⟨ascii "0000000000000000000000000000000g.c."⟩, 50, 8, 2, 3600, 2000000000, 1000000000, 20326, ⟨ascii "c."⟩, [1]⟩,
      ⟨by decide +kernel, ?_⟩, rfl, rfl⟩, by decide +kernel, by decide, by cases dbg <;> decide +kernel⟩
  show verifyRrsig _ _ _ _ = _
  decide +kernel

end Dnssec.Props
