import Verif.Props.Chain

/-! # C70 in zones with complete chains of denial records: which names can be shown not to exist -/

namespace Dnssec.Props

open Dnssec Spec

variable {dbg : Bool} {p : Platform} {inp : List RR} {zone : Name}

/-- The name after an owner is the next owner, unless it is the last one. -/
theorem nsec_next_after {chain : List NSec} (h : NsecChain zone chain) {n m : NSec} (hn : n ∈ chain) (hm : m ∈ chain)
    (hlt : TextLt n.name.bytes m.name.bytes) : TextLt n.name.bytes n.nextName.bytes := by
  obtain ⟨i, hi, rfl⟩ := List.mem_iff_getElem.mp hn
  obtain ⟨j, hj, rfl⟩ := List.mem_iff_getElem.mp hm
  have hij : i < j := by
    rcases Nat.lt_trichotomy i j with h' | rfl | h'
    · exact h'
    · exact absurd hlt (textLt_irrefl _)
    · exact absurd (textLt_trans hlt (List.pairwise_iff_getElem.mp h.sorted j i hj hi h')) (textLt_irrefl _)
  have hi1 : i + 1 < chain.length := by omega
  rw [h.next i _ (List.getElem?_eq_getElem hi), List.getElem?_eq_getElem hi1]
  exact List.pairwise_iff_getElem.mp h.sorted i (i + 1) hi hi1 (by omega)

theorem textLt_fold {a b c : Bytes} (h : a.map foldCase = b.map foldCase) : TextLt a c ↔ TextLt b c := by
  have key : ∀ {a b : Bytes}, a.map foldCase = b.map foldCase → TextLt a c → TextLt b c := by
    intro a b h hlt
    by_cases hbc : b.map foldCase = c.map foldCase
    · have h1 := (nsecOrd_lt_text _ _).mpr hlt
      rw [← lower_eq_fold, ← lower_eq_fold] at h hbc
      rw [(nsecOrd_eq_iff a c).mpr (h.trans hbc)] at h1
      exact absurd h1 (by simp)
    · rcases textLt_total b c hbc with h1 | h1
      · exact h1
      · have h2 := textLt_trans hlt h1
        have h1 := (nsecOrd_lt_text _ _).mpr h2
        rw [← lower_eq_fold, ← lower_eq_fold] at h
        rw [(nsecOrd_eq_iff a b).mpr h] at h1
        exact absurd h1 (by simp)
  exact ⟨key h, key h.symm⟩

/-- **C70, exact, for zones with NSEC records.** Some NSEC record of the zone counts as denial of records of the type at the name iff some name of the zone comes after
it, or the name exists without such records. Whether the name exists does not matter. -/
theorem C70_nsec_denied_iff {chain : List NSec} (h : NsecChain zone chain) {name : Bytes} (hz : TextLt zone.bytes name) (ty : UInt16) :
    (∃ n ∈ chain, NsecDenies n name ty) ↔
      (∃ n ∈ chain, TextLt name n.name.bytes) ∨ ∃ n ∈ chain, n.name.bytes = name ∧ n.types.containsType ty = false := by
  by_cases hno : ∀ n ∈ chain, n.name.bytes.map foldCase ≠ name.map foldCase
  · rw [C83_nsec_iff h hz hno]
    refine ⟨Or.inl, ?_⟩
    rintro (h1 | ⟨n, hn, he, _⟩)
    · exact h1
    · exact absurd (by rw [he]) (hno n hn)
  · simp only [Classical.not_forall, Decidable.not_not] at hno
    obtain ⟨n, hn, he⟩ := hno
    constructor
    · rintro ⟨m, hm, hd | ⟨_, hlt⟩⟩
      · exact Or.inr ⟨m, hm, hd⟩
      · obtain ⟨i, hi⟩ := List.getElem?_of_mem hm
        rw [h.next i m hi] at hlt
        cases hc : chain[i + 1]? with
        | none =>
          rw [hc] at hlt
          exact absurd (textLt_trans hz hlt) (textLt_irrefl _)
        | some k =>
          rw [hc] at hlt
          exact Or.inl ⟨k, List.mem_of_getElem? hc, hlt⟩
    · rintro (⟨m, hm, hlt⟩ | ⟨m, hm, hd⟩)
      · have h1 := (textLt_fold he).mpr hlt
        exact ⟨n, hn, Or.inr ⟨Or.inl he, (textLt_fold he).mp (nsec_next_after h hn hm h1)⟩⟩
      · exact ⟨m, hm, Or.inl hd⟩

/-- **C70, exact, for zones with NSEC3 records.** The same with hashes. -/
theorem C70_nsec3_denied_iff {it : UInt16} {salt : Bytes} {chain : List (Bytes × NSec3)} (h : Nsec3Chain zone it salt chain) (hit : it.toNat ≤ 2500)
    {name hash : Bytes} (hh : hash = iteratedHash p.sha1 salt (nameWire name) it.toNat) (ty : UInt16) :
    (∃ e ∈ chain, Nsec3Denies p e.2 name ty) ↔
      ((∃ e ∈ chain, e.1 = hash ∨ OctetLt e.1 hash) ∧ ∃ e ∈ chain, OctetLt hash e.1) ∨
      ∃ e ∈ chain, e.1 = hash ∧ e.2.types.containsType ty = false := by
  by_cases hno : ∀ e ∈ chain, e.1 ≠ hash
  · rw [C83_nsec3_iff h hit hh hno]
    constructor
    · rintro ⟨⟨e, he, h1⟩, h2⟩
      exact Or.inl ⟨⟨e, he, Or.inr h1⟩, h2⟩
    · rintro (⟨⟨e, he, h1 | h1⟩, h2⟩ | ⟨e, he, h1, _⟩)
      · exact absurd h1 (hno e he)
      · exact ⟨⟨e, he, h1⟩, h2⟩
      · exact absurd h1 (hno e he)
  · simp only [Classical.not_forall, Decidable.not_not] at hno
    obtain ⟨e, he, rfl⟩ := hno
    constructor
    · rintro ⟨x, hx, hd⟩
      obtain ⟨_, _, h3, h4⟩ := h.parameters x hx
      obtain ⟨_, label, hb, hdot, hhex⟩ := h.owner x hx
      obtain ⟨label', rest', start, hash', b1, b2, b3, _, _, b6, b7⟩ := hd.denies
      have hlab : label = label' := by
        have e1 := (splitOnceDot_some_iff _ _ _).mpr ⟨hb, hdot⟩
        have e2 := (splitOnceDot_some_iff _ _ _).mpr ⟨b1, b2⟩
        rw [e1] at e2
        simp only [Option.some.injEq, Prod.mk.injEq] at e2
        exact e2.1
      subst hlab
      have hst : start = x.1 := by
        have e1 := (Base32.decode_iff_hex _ _).mpr hhex
        have e2 := (Base32.decode_iff_hex _ _).mpr b3
        rw [e1] at e2
        exact (Option.some.inj e2).symm
      subst hst
      rw [h3, h4, ← hh] at b6
      subst b6
      rcases b7 with ⟨b7, b8⟩ | ⟨b7, b8⟩
      · exact Or.inr ⟨x, hx, b7, b8⟩
      · refine Or.inl ⟨⟨x, hx, b7⟩, ?_⟩
        rcases h.next_cases hx with ⟨e', he', hq, _⟩ | ⟨e0, he0, hq, _⟩
        · exact ⟨e', he', hq ▸ b8⟩
        · exact ⟨e0, he0, hq ▸ b8⟩
    · have mk : ∀ x ∈ chain, x.1 = e.1 → (x.2.types.containsType ty = false ∨ OctetLt e.1 x.2.nextNameHash) → Nsec3Denies p x.2 name ty := by
        intro x hx hxe hor
        obtain ⟨g1, g2, g3, g4⟩ := h.parameters x hx
        obtain ⟨hlen, label, hb, hdot, hhex⟩ := h.owner x hx
        refine ⟨g2, g1, by rw [g3]; exact hit, label, zone.bytes, x.1, e.1, hb, hdot, hhex, hlen, ?_, by rw [g3, g4]; exact hh, ?_⟩
        · rcases h.next_cases hx with ⟨e', he', hq, _⟩ | ⟨e', he', hq, _⟩
          · rw [hq]; exact (h.owner e' he').1
          · rw [hq]; exact (h.owner e' he').1
        · rcases hor with h1 | h1
          · exact Or.inl ⟨hxe, h1⟩
          · exact Or.inr ⟨Or.inl hxe, h1⟩
      rintro (⟨_, m, hm, hlt⟩ | ⟨x, hx, hxe, hty⟩)
      · refine ⟨e, he, mk e he rfl (Or.inr ?_)⟩
        rcases h.next_cases he with ⟨e', _, hq, hl⟩ | ⟨_, _, _, _, hl⟩
        · rw [hq]; exact hl
        · rcases hl m hm with hl | hl
          · rw [hl] at hlt; exact absurd hlt (octetLt_irrefl _)
          · exact absurd (octetLt_trans hlt hl) (octetLt_irrefl _)
      · exact ⟨x, hx, mk x hx hxe (Or.inl hty)⟩

/-- **C70 is false**, in every zone with a wildcard and a complete chain of NSEC records: a proof in which all else is in order, and in which the records of the wildcard
are presented at a name whose next closer name comes before the last name of the zone, is accepted, whether or not that name exists. -/
theorem C70_fails_in_every_zone (h1 : InOrder (codeCheck p) p inp) (h2 : RootDelegates (codeCheck p) inp)
    (h3 : ¬ SelfDelegation (codeCheck p) p inp) (h4 : ∃ r, Authenticated (codeCheck p) p inp r ∧ r.ty ≠ 43)
    (h5 : CommonWindow (codeCheck p) p inp)
    (h6 : ∀ z s, Reached (codeCheck p) p inp z → SignedBy (codeCheck p) inp z s → s.ty ≠ 43 → Expanded s →
      ∃ name chain, NextCloser s name ∧ NsecChain z chain ∧ (∀ n ∈ chain, Authenticated (codeCheck p) p inp (.nsec n)) ∧
        TextLt z.bytes name ∧ ∃ n ∈ chain, TextLt name n.name.bytes) :
    ∃ fuel v, verifyRRStream dbg p fuel inp = some (.ok v) := by
  refine C56_complete h1 h2 h3 h4 h5 ?_
  intro z s hz hs ht hx name' hname
  obtain ⟨name, chain, ⟨pre, next, suf, hl, hlen, rfl⟩, hc, ha, hzn, hlt⟩ := h6 z s hz hs ht hx
  have hsl : (s.labels + 1).toNat = s.labels.toNat + 1 := by
    have hle := hl.length_le
    rw [UInt8.toNat_add]
    change (s.labels.toNat + 1) % 256 = _
    simp only [List.length_append, List.length_cons] at hle
    omega
  rw [hl.trailing, hsl, if_pos (by simp; omega)] at hname
  have : name' = text (next :: suf) := by
    rw [← Option.some.inj hname, List.length_append, List.length_cons, hlen,
      show pre.length + (s.labels.toNat + 1) - (s.labels.toNat + 1) = pre.length by omega]
    simp
  subst this
  obtain ⟨n, hn, hd⟩ := (C70_nsec_denied_iff hc hzn s.ty).mpr (Or.inl hlt)
  exact Or.inl ⟨n, ha n hn, hc.within n hn, hd⟩

/-- The address of `*.c.` presented at `x.c.`, which has an address of its own, with the NSEC records of the zone. -/
def existingChain : List NSec :=
  [⟨⟨ascii "c."⟩, ⟨ascii "*.c."⟩, NSecTypeMask.fromTypes [2, 6, 46, 47, 48]⟩,
   ⟨⟨ascii "*.c."⟩, ⟨ascii "x.c."⟩, NSecTypeMask.fromTypes [1, 46, 47]⟩,
   ⟨⟨ascii "x.c."⟩, ⟨ascii "z.c."⟩, NSecTypeMask.fromTypes [1, 46, 47]⟩,
   ⟨⟨ascii "z.c."⟩, ⟨ascii "c."⟩, NSecTypeMask.fromTypes [1, 46, 47]⟩]

theorem existingChain_ok : NsecChain ⟨ascii "c."⟩ existingChain := by
  refine ⟨by decide +kernel, by decide +kernel, ?_, ?_⟩
  · intro i n h
    match i, h with
    | 0, h => cases h; decide
    | 1, h => cases h; decide
    | 2, h => cases h; decide
    | 3, h => cases h; decide
    | _ + 4, h => simp [existingChain] at h
  · intro n hn
    simp only [existingChain, List.mem_cons, List.not_mem_nil, or_false] at hn
    rcases hn with rfl | rfl | rfl | rfl
    · exact ⟨[], rfl⟩
    · exact ⟨ascii "*.", by decide⟩
    · exact ⟨ascii "x.", by decide⟩
    · exact ⟨ascii "z.", by decide⟩

/-- This is such a zone, and the proof is accepted. -/
example : NsecChain ⟨ascii "c."⟩ existingChain ∧ (∃ n ∈ existingChain, n.name.bytes = ascii "x.c.") ∧ NextCloser wildSig (ascii "x.c.") ∧
    TextLt (ascii "c.") (ascii "x.c.") ∧ (∃ n ∈ existingChain, TextLt (ascii "x.c.") n.name.bytes) ∧
    verifyRRStream true wPlatform 5 (chainStream existingChain) = some (.ok ⟨[wA "x.c."], 1000000000, 2000000000, 3600⟩) :=
  ⟨existingChain_ok, ⟨existingChain[2], by simp [existingChain], rfl⟩, wildSig_next, by decide +kernel,
    ⟨existingChain[3], by simp [existingChain], by decide +kernel⟩, by decide +kernel⟩

end Dnssec.Props
