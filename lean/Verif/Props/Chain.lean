import Verif.Proofs.Chain
import Verif.Props.Termination

/-! # C83: what an honest zone denies can be shown to be denied -/

namespace Dnssec.Props

open Dnssec Spec

variable {dbg : Bool} {p : Platform} {inp : List RR} {zone : Name}

/-! ## NSEC -/

/-- The NSEC records of a zone cover every name after the zone's that is not an owner (a check of the specification, not of the code). -/
theorem C83_nsec_complete {chain : List NSec} (h : NsecChain zone chain) {name : Bytes} (hz : TextLt zone.bytes name)
    (hno : ∀ n ∈ chain, n.name.bytes.map foldCase ≠ name.map foldCase) : ∃ n ∈ chain, NsecCovers zone n name := by
  rcases h.covered hz hno with ⟨n, hn, a, b⟩ | ⟨_, n, hn, a, b⟩
  · exact ⟨n, hn, a, Or.inl b⟩
  · exact ⟨n, hn, a, Or.inr b⟩

/-- **C83, NSEC, exact.** Some NSEC record of the zone counts as denial of a name that does not exist iff some name of the zone comes after it. -/
theorem C83_nsec_iff {chain : List NSec} (h : NsecChain zone chain) {name : Bytes} (hz : TextLt zone.bytes name)
    (hno : ∀ n ∈ chain, n.name.bytes.map foldCase ≠ name.map foldCase) (ty : UInt16) :
    (∃ n ∈ chain, NsecDenies n name ty) ↔ ∃ n ∈ chain, TextLt name n.name.bytes := by
  constructor
  · rintro ⟨n, hn, ⟨he, _⟩ | ⟨hle, hlt⟩⟩
    · exact absurd (by rw [he]) (hno n hn)
    · obtain ⟨i, hi⟩ := List.getElem?_of_mem hn
      rw [h.next i n hi] at hlt
      cases hc : chain[i + 1]? with
      | none =>
        rw [hc] at hlt
        exact absurd (textLt_trans hz hlt) (textLt_irrefl _)
      | some m =>
        rw [hc] at hlt
        exact ⟨m, List.mem_of_getElem? hc, hlt⟩
  · rintro ⟨m, hm, hlt⟩
    rcases h.covered hz hno with ⟨n, hn, a, b⟩ | ⟨hall, _⟩
    · exact ⟨n, hn, Or.inr ⟨Or.inr a, b⟩⟩
    · exact absurd (textLt_trans hlt (hall m hm)) (textLt_irrefl _)

/-- **C83 is false**, in every zone with NSEC records: if they are all a proof has to offer as denials, no records expanded from a wildcard are
ever accepted for a name whose next closer name comes after the last name in the zone. -/
theorem C83_fails_after_last_name {fuel : Nat} {v : Verified} {chain : List NSec} (h : NsecChain zone chain)
    (honly : ∀ n, Authenticated (codeCheck p) p inp (.nsec n) → n ∈ chain)
    (hno3 : ∀ n, ¬ Authenticated (codeCheck p) p inp (.nsec3 n))
    (z : Name) (sig : RRSig) (hz : Reached (codeCheck p) p inp z) (hs : SignedBy (codeCheck p) inp z sig) (r : RR) (hr : r ∈ inp)
    (hn : r.name = sig.name) (ht : r.ty = sig.ty) (hds : sig.ty ≠ 43) (hx : Expanded sig) (name : Bytes) (hc : NextCloser sig name)
    (hzn : TextLt zone.bytes name) (hlast : ∀ n ∈ chain, TextLt n.name.bytes name) :
    verifyRRStream dbg p fuel inp ≠ some (.ok v) := by
  intro hv
  obtain ⟨pre, next, suf, hl, hlen, rfl⟩ := hc
  obtain ⟨pre', next', suf', he, hlen', hd⟩ := C28_wildcard_needs_denial hv z sig hz hs r hr hn ht hds hx _ hl
  have hsuf : next :: suf = next' :: suf' := by
    have := congrArg (fun l => l.drop (l.length - (suf.length + 1))) he
    simp only [List.length_append, List.length_cons] at this
    rw [show pre.length + (suf.length + 1) - (suf.length + 1) = pre.length by omega,
      show pre'.length + (suf'.length + 1) - (suf.length + 1) = pre'.length by omega] at this
    simpa using this
  rw [← hsuf] at hd
  have hno : ∀ n ∈ chain, n.name.bytes.map foldCase ≠ (text (next :: suf)).map foldCase := by
    intro n hn he
    have h1 := (nsecOrd_lt_text _ _).mpr (hlast n hn)
    rw [← lower_eq_fold, ← lower_eq_fold, ← nsecOrd_eq_iff, h1] at he
    simp at he
  rcases hd with ⟨n, ha, hd⟩ | ⟨n, ha, _⟩
  · obtain ⟨m, hm, hlt⟩ := (C83_nsec_iff h hzn hno sig.ty).mp ⟨n, honly n ha, hd⟩
    exact textLt_irrefl _ (textLt_trans hlt (hlast m hm))
  · exact hno3 n ha

/-! ## NSEC3 -/

/-- The NSEC3 records of a zone cover every hash that is not an owner's (a check of the specification, not of the code). -/
theorem C83_nsec3_complete {it : UInt16} {salt : Bytes} {chain : List (Bytes × NSec3)} (h : Nsec3Chain zone it salt chain) {hash : Bytes}
    (hno : ∀ e ∈ chain, e.1 ≠ hash) : ∃ e ∈ chain, Nsec3Covers e.1 e.2 hash := by
  by_cases h1 : ∃ e ∈ chain, OctetLt e.1 hash
  · by_cases h2 : ∃ e ∈ chain, OctetLt hash e.1
    · obtain ⟨e, he, a⟩ := h.covered hno h1 h2
      exact ⟨e, he, Or.inl a⟩
    · have hl : chain.length - 1 < chain.length := by
        have := List.length_pos_iff.mpr h.nonempty
        omega
      have hm := List.getElem_mem hl
      refine ⟨_, hm, Or.inr ⟨?_, Or.inl ?_⟩⟩
      · rcases h.next_cases hm with ⟨e', he', _, hlt⟩ | ⟨e0, he0, hq, _, hlt⟩
        · obtain ⟨j, hj, rfl⟩ := List.mem_iff_getElem.mp he'
          rcases Nat.lt_or_ge j (chain.length - 1) with hjl | hjl
          · exact absurd (octetLt_trans hlt (List.pairwise_iff_getElem.mp h.sorted _ _ hj hl hjl)) (octetLt_irrefl _)
          · have : j = chain.length - 1 := by omega
            subst this
            exact absurd hlt (octetLt_irrefl _)
        · rw [hq]
          rcases hlt e0 he0 with he | he
          · rw [he]; exact octetLt_irrefl _
          · exact fun h => octetLt_irrefl _ (octetLt_trans h he)
      · exact (octetLt_total _ _ (hno _ hm)).resolve_right fun hlt => h2 ⟨_, hm, hlt⟩
  · have hl : chain.length - 1 < chain.length := by
      have := List.length_pos_iff.mpr h.nonempty
      omega
    have hm := List.getElem_mem hl
    rcases h.next_cases hm with ⟨e', he', _, hlt⟩ | ⟨e0, he0, hq, _, hlt⟩
    · obtain ⟨j, hj, rfl⟩ := List.mem_iff_getElem.mp he'
      rcases Nat.lt_or_ge j (chain.length - 1) with hjl | hjl
      · exact absurd (octetLt_trans hlt (List.pairwise_iff_getElem.mp h.sorted _ _ hj hl hjl)) (octetLt_irrefl _)
      · have : j = chain.length - 1 := by omega
        subst this
        exact absurd hlt (octetLt_irrefl _)
    · refine ⟨_, hm, Or.inr ⟨?_, Or.inr ?_⟩⟩
      · rw [hq]
        rcases hlt e0 he0 with he | he
        · rw [he]; exact octetLt_irrefl _
        · exact fun h => octetLt_irrefl _ (octetLt_trans h he)
      · rw [hq]
        exact (octetLt_total _ _ (hno e0 he0)).resolve_left fun hlt => h1 ⟨_, he0, hlt⟩

/-- **C83, NSEC3, exact.** Some NSEC3 record of the zone counts as denial of a name whose hash is not an owner's iff the hash lies between
two of the zone's hashes. -/
theorem C83_nsec3_iff {it : UInt16} {salt : Bytes} {chain : List (Bytes × NSec3)} (h : Nsec3Chain zone it salt chain)
    (hit : it.toNat ≤ 2500) {name hash : Bytes} (hh : hash = iteratedHash p.sha1 salt (nameWire name) it.toNat)
    (hno : ∀ e ∈ chain, e.1 ≠ hash) (ty : UInt16) :
    (∃ e ∈ chain, Nsec3Denies p e.2 name ty) ↔ (∃ e ∈ chain, OctetLt e.1 hash) ∧ ∃ e ∈ chain, OctetLt hash e.1 := by
  constructor
  · rintro ⟨e, he, hd⟩
    obtain ⟨_, _, h3, h4⟩ := h.parameters e he
    obtain ⟨_, label, hb, hdot, hhex⟩ := h.owner e he
    obtain ⟨label', rest', start, hash', b1, b2, b3, _, _, b6, b7⟩ := hd.denies
    have hlab : label = label' := by
      have e1 := (splitOnceDot_some_iff _ _ _).mpr ⟨hb, hdot⟩
      have e2 := (splitOnceDot_some_iff _ _ _).mpr ⟨b1, b2⟩
      rw [e1] at e2
      simp only [Option.some.injEq, Prod.mk.injEq] at e2
      exact e2.1
    subst hlab
    have hst : start = e.1 := by
      have e1 := (Base32.decode_iff_hex _ _).mpr hhex
      have e2 := (Base32.decode_iff_hex _ _).mpr b3
      rw [e1] at e2
      exact (Option.some.inj e2).symm
    subst hst
    rw [h3, h4, ← hh] at b6
    subst b6
    rcases b7 with ⟨b7, _⟩ | ⟨b7 | b7, b8⟩
    · exact absurd b7 (hno e he)
    · exact absurd b7 (hno e he)
    · refine ⟨⟨e, he, b7⟩, ?_⟩
      rcases h.next_cases he with ⟨e', he', hq, _⟩ | ⟨e0, he0, hq, _⟩
      · exact ⟨e', he', hq ▸ b8⟩
      · exact ⟨e0, he0, hq ▸ b8⟩
  · rintro ⟨h1, h2⟩
    obtain ⟨e, he, a, b⟩ := h.covered hno h1 h2
    obtain ⟨g1, g2, g3, g4⟩ := h.parameters e he
    obtain ⟨hlen, label, hb, hdot, hhex⟩ := h.owner e he
    refine ⟨e, he, g2, g1, by rw [g3]; exact hit, label, zone.bytes, e.1, hash, hb, hdot, hhex, hlen, ?_, by rw [g3, g4]; exact hh,
      Or.inr ⟨Or.inr a, b⟩⟩
    rcases h.next_cases he with ⟨e', he', hq, _⟩ | ⟨e', he', hq, _⟩
    · rw [hq]; exact (h.owner e' he').1
    · rw [hq]; exact (h.owner e' he').1

/-- **C83 is false**, in every zone with NSEC3 records: if they are all a proof has to offer as denials, no records expanded from a wildcard are
ever accepted for a name whose next closer name has a hash before the first or after the last hash of the zone. -/
theorem C83_fails_outside_hashes {fuel : Nat} {v : Verified} {it : UInt16} {salt : Bytes} {chain : List (Bytes × NSec3)}
    (h : Nsec3Chain zone it salt chain) (honly : ∀ n, Authenticated (codeCheck p) p inp (.nsec3 n) → ∃ e ∈ chain, e.2 = n)
    (hnon : ∀ n, ¬ Authenticated (codeCheck p) p inp (.nsec n))
    (z : Name) (sig : RRSig) (hz : Reached (codeCheck p) p inp z) (hs : SignedBy (codeCheck p) inp z sig) (r : RR) (hr : r ∈ inp)
    (hn : r.name = sig.name) (ht : r.ty = sig.ty) (hds : sig.ty ≠ 43) (hx : Expanded sig) (name hash : Bytes) (hc : NextCloser sig name)
    (hh : hash = iteratedHash p.sha1 salt (nameWire name) it.toNat)
    (hout : (∀ e ∈ chain, OctetLt e.1 hash) ∨ ∀ e ∈ chain, OctetLt hash e.1) :
    verifyRRStream dbg p fuel inp ≠ some (.ok v) := by
  intro hv
  obtain ⟨pre, next, suf, hl, hlen, rfl⟩ := hc
  obtain ⟨pre', next', suf', he, hlen', hd⟩ := C28_wildcard_needs_denial hv z sig hz hs r hr hn ht hds hx _ hl
  have hsuf : next :: suf = next' :: suf' := by
    have := congrArg (fun l => l.drop (l.length - (suf.length + 1))) he
    simp only [List.length_append, List.length_cons] at this
    rw [show pre.length + (suf.length + 1) - (suf.length + 1) = pre.length by omega,
      show pre'.length + (suf'.length + 1) - (suf.length + 1) = pre'.length by omega] at this
    simpa using this
  rw [← hsuf] at hd
  have hno : ∀ e ∈ chain, e.1 ≠ hash := by
    intro e he heq
    rcases hout with h | h
    · exact octetLt_irrefl _ (heq ▸ h e he)
    · exact octetLt_irrefl _ (heq ▸ h e he)
  rcases hd with ⟨n, ha, _⟩ | ⟨n, ha, hd⟩
  · exact hnon n ha
  · obtain ⟨e, he, rfl⟩ := honly n ha
    have hit : it.toNat ≤ 2500 := by
      have := hd.iterations
      rwa [(h.parameters e he).2.2.1] at this
    obtain ⟨⟨a, ha, h1⟩, b, hb, h2⟩ := (C83_nsec3_iff h hit hh hno sig.ty).mp ⟨e, he, hd⟩
    rcases hout with h | h
    · exact octetLt_irrefl _ (octetLt_trans h2 (h b hb))
    · exact octetLt_irrefl _ (octetLt_trans h1 (h a ha))

/-! ## What is accepted -/

/-- **C83 (partial).** If all is in order in the zones reached, and every record set expanded from a wildcard comes with all NSEC or all NSEC3
records of its zone, and its next closer name lies between two of their owners, the proof is accepted. Missing: names that come after the last or before
the first, for which this is false, and NSEC3 records with opt-out, which are never used. -/
theorem C83_accepted_partial (h1 : InOrder (codeCheck p) p inp) (h2 : RootDelegates (codeCheck p) inp)
    (h3 : ¬ SelfDelegation (codeCheck p) p inp) (h4 : ∃ r, Authenticated (codeCheck p) p inp r ∧ r.ty ≠ 43)
    (h5 : CommonWindow (codeCheck p) p inp)
    (h6 : ∀ z s, Reached (codeCheck p) p inp z → SignedBy (codeCheck p) inp z s → s.ty ≠ 43 → Expanded s →
      ∃ name, NextCloser s name ∧ (NsecBetween (codeCheck p) p inp z name ∨ Nsec3Between (codeCheck p) p inp z name)) :
    ∃ fuel v, verifyRRStream dbg p fuel inp = some (.ok v) := by
  refine C56_complete h1 h2 h3 h4 h5 ?_
  intro z s hz hs ht hx name' hname
  obtain ⟨name, ⟨pre, next, suf, hl, hlen, rfl⟩, hb⟩ := h6 z s hz hs ht hx
  have hsl : (s.labels + 1).toNat = s.labels.toNat + 1 := by
    have hle := hl.length_le
    rw [UInt8.toNat_add]
    change (s.labels.toNat + 1) % 256 = _
    simp only [List.length_append, List.length_cons] at hle
    omega
  rw [hl.trailing, hsl, if_pos (by simp; omega)] at hname
  have : name' = text (next :: suf) := by
    rw [← Option.some.inj hname, List.length_append, List.length_cons, hlen,
      show pre.length + (s.labels.toNat + 1) - (s.labels.toNat + 1) = pre.length by omega]
    simp
  subst this
  rcases hb with ⟨chain, hc, ha, hzn, hno, hlt⟩ | ⟨it, salt, chain, hc, ha, honly, hit, hash, hh, hno, ha1, ha2⟩
  · obtain ⟨n, hn, hd⟩ := (C83_nsec_iff hc hzn hno s.ty).mpr hlt
    exact Or.inl ⟨n, ha n hn, hc.within n hn, hd⟩
  · obtain ⟨e, he, hd⟩ := (C83_nsec3_iff hc hit hh hno s.ty).mpr ⟨ha1, ha2⟩
    obtain ⟨_, label, hb, _⟩ := hc.owner e he
    refine Or.inr ⟨e.2, ha e he, ⟨label ++ [46], by rw [hb]; simp⟩, hd, honly⟩

/-! ## Examples -/

/-- The address of `x.c.`, expanded from `*.c.`, with the NSEC records between the given names, all signed. -/
def chainStream (chain : List NSec) : List RR :=
  wZone "." 0 ++ wDelegation "." "c." 1 ++ [wA "x.c.", wSig "x.c." 1 1 "c."] ++
    (chain.map fun n => [RR.nsec n, .rrsig ⟨n.name, 47, 8, 1, 3600, 2000000000, 1000000000, 20326, ⟨ascii "c."⟩, [1]⟩]).flatten

/-- The NSEC records of the smallest zone with a wildcard. -/
def smallChain : List NSec :=
  [⟨⟨ascii "c."⟩, ⟨ascii "*.c."⟩, NSecTypeMask.fromTypes [2, 6, 46, 47, 48]⟩,
   ⟨⟨ascii "*.c."⟩, ⟨ascii "c."⟩, NSecTypeMask.fromTypes [1, 46, 47]⟩]

/-- The same with another name at the end. -/
def longerChain : List NSec :=
  [⟨⟨ascii "c."⟩, ⟨ascii "*.c."⟩, NSecTypeMask.fromTypes [2, 6, 46, 47, 48]⟩,
   ⟨⟨ascii "*.c."⟩, ⟨ascii "z.c."⟩, NSecTypeMask.fromTypes [1, 46, 47]⟩,
   ⟨⟨ascii "z.c."⟩, ⟨ascii "c."⟩, NSecTypeMask.fromTypes [1, 46, 47]⟩]

theorem smallChain_ok : NsecChain ⟨ascii "c."⟩ smallChain := by
  refine ⟨by decide +kernel, by decide +kernel, ?_, ?_⟩
  · intro i n h
    match i, h with
    | 0, h => cases h; decide
    | 1, h => cases h; decide
    | i + 2, h => simp [smallChain] at h
  · intro n hn
    simp only [smallChain, List.mem_cons, List.not_mem_nil, or_false] at hn
    rcases hn with rfl | rfl
    · exact ⟨[], by decide⟩
    · exact ⟨ascii "*.", by decide⟩

theorem longerChain_ok : NsecChain ⟨ascii "c."⟩ longerChain := by
  refine ⟨by decide +kernel, by decide +kernel, ?_, ?_⟩
  · intro i n h
    match i, h with
    | 0, h => cases h; decide
    | 1, h => cases h; decide
    | 2, h => cases h; decide
    | i + 3, h => simp [longerChain] at h
  · intro n hn
    simp only [longerChain, List.mem_cons, List.not_mem_nil, or_false] at hn
    rcases hn with rfl | rfl | rfl
    · exact ⟨[], by decide⟩
    · exact ⟨ascii "*.", by decide⟩
    · exact ⟨ascii "z.", by decide⟩

/-- **C83 is false**: the smallest zone with a wildcard has the names `c.` and `*.c.`. A proof for the address of `x.c.` with everything the zone has,
in which the second NSEC record shows that `x.c.` does not exist, is rejected. With one more name after `x.c.` in the zone it is accepted. -/
theorem C83_fails_smallest_zone (dbg : Bool) : NsecChain ⟨ascii "c."⟩ smallChain ∧
    (∃ n ∈ smallChain, NsecCovers ⟨ascii "c."⟩ n (ascii "x.c.")) ∧
    verifyRRStream dbg wPlatform 5 (chainStream smallChain) = some (.err .invalid) ∧
    NsecChain ⟨ascii "c."⟩ longerChain ∧
    verifyRRStream dbg wPlatform 5 (chainStream longerChain) = some (.ok ⟨[wA "x.c."], 1000000000, 2000000000, 3600⟩) := by
  refine ⟨smallChain_ok, ?_, by cases dbg <;> decide +kernel, longerChain_ok, by cases dbg <;> decide +kernel⟩
  exact C83_nsec_complete smallChain_ok (by decide +kernel) (by decide +kernel)

/-- A zone reached and a signature by it, as decided by computation. -/
theorem reached_c {inp : List RR} (hk : ∃ s, verifyDnskeys wPlatform (keySigs inp rootName) (anchors inp rootName) (keysAt inp rootName) = .ok s)
    (hroot : ∃ s ∈ sigsBy inp rootName, s.ty = 43 ∧ s.name = ⟨ascii "c."⟩ ∧
      verifyRrsig wPlatform s (keysAt inp rootName) (rrset inp s.name s.ty) = .ok ()) :
    Reached (codeCheck wPlatform) wPlatform inp ⟨ascii "c."⟩ := by
  obtain ⟨s, hs1, hs2, hs3, hs4⟩ := hroot
  obtain ⟨ksig, hk⟩ := hk
  rw [← hs3]
  exact .delegated rootName ksig s .root ((verifyDnskeys_ok_iff _ _ _ _ _).mp hk) ⟨hs1, hs4⟩ hs2

/-- The root's signature over its keys in the examples. -/
def wRootSig : RRSig := ⟨⟨ascii "."⟩, 48, 8, 0, 3600, 2000000000, 1000000000, 20326, ⟨ascii "."⟩, [1]⟩

/-- The signature over the address of `x.c.` in the examples. -/
def wildSig : RRSig := ⟨⟨ascii "x.c."⟩, 1, 8, 1, 3600, 2000000000, 1000000000, 20326, ⟨ascii "c."⟩, [1]⟩

theorem wildSig_next : NextCloser wildSig (ascii "x.c.") :=
  ⟨[], ascii "x", [ascii "c"], by decide, by decide, by decide⟩

/-- The smallest zone meets the hypotheses of `C83_fails_after_last_name`. -/
example : let inp := chainStream smallChain
    (∀ n, Authenticated (codeCheck wPlatform) wPlatform inp (.nsec n) → n ∈ smallChain) ∧
    (∀ n, ¬ Authenticated (codeCheck wPlatform) wPlatform inp (.nsec3 n)) ∧
    Reached (codeCheck wPlatform) wPlatform inp ⟨ascii "c."⟩ ∧ SignedBy (codeCheck wPlatform) inp ⟨ascii "c."⟩ wildSig ∧
    wA "x.c." ∈ inp ∧ Expanded wildSig ∧ NextCloser wildSig (ascii "x.c.") ∧ TextLt (ascii "c.") (ascii "x.c.") ∧
    ∀ n ∈ smallChain, TextLt n.name.bytes (ascii "x.c.") := by
  refine ⟨?_, ?_, reached_c ⟨wRootSig, by decide +kernel⟩ (by decide +kernel), ⟨by decide +kernel, ?_⟩, by decide +kernel,
    ⟨by decide, by decide⟩, wildSig_next, by decide +kernel, by decide +kernel⟩
  · rintro n ⟨_, _, _, _, _, _, h, _⟩
    simp only [chainStream, wZone, wDelegation, wKey, wSig, wSigWith, wDs, wA, smallChain, List.map_cons, List.map_nil, List.flatten_cons,
      List.flatten_nil, List.cons_append, List.nil_append, List.append_nil, List.mem_cons, List.not_mem_nil, or_false, RR.nsec.injEq,
      reduceCtorEq, false_or] at h
    simpa [smallChain] using h
  · rintro n ⟨_, _, _, _, _, _, h, _⟩
    simp [chainStream, wZone, wDelegation, wKey, wSig, wSigWith, wDs, wA, smallChain] at h
  · show verifyRrsig _ _ _ _ = _
    decide +kernel

/-- The zone with one more name meets those of `C83_accepted_partial`. -/
example : let inp := chainStream longerChain
    InOrder (codeCheck wPlatform) wPlatform inp ∧ RootDelegates (codeCheck wPlatform) inp ∧
    ¬ SelfDelegation (codeCheck wPlatform) wPlatform inp ∧
    (∃ r, Authenticated (codeCheck wPlatform) wPlatform inp r ∧ r.ty ≠ 43) ∧ CommonWindow (codeCheck wPlatform) wPlatform inp ∧
    ∀ z s, Reached (codeCheck wPlatform) wPlatform inp z → SignedBy (codeCheck wPlatform) inp z s → s.ty ≠ 43 → Expanded s →
      ∃ name, NextCloser s name ∧
        (NsecBetween (codeCheck wPlatform) wPlatform inp z name ∨ Nsec3Between (codeCheck wPlatform) wPlatform inp z name) := by
  intro inp
  have hok : verifyRRStream false wPlatform 5 (chainStream longerChain) =
      some (.ok ⟨[wA "x.c."], 1000000000, 2000000000, 3600⟩) := by decide +kernel
  have hsig : ∀ s ∈ (chainStream longerChain).filterMap (fun | .rrsig s => some s | _ => none), s.labels ≠ 255 := by
    decide +kernel
  have hexp : ∀ s ∈ (chainStream longerChain).filterMap (fun | .rrsig s => some s | _ => none),
      (s.labels ≠ s.name.labels ∧ s.ty ≠ 47) → s = wildSig := by decide +kernel
  have ms : ∀ s, RR.rrsig s ∈ chainStream longerChain →
      s ∈ (chainStream longerChain).filterMap (fun | .rrsig s => some s | _ => none) :=
    fun s h => List.mem_filterMap.mpr ⟨_, h, rfl⟩
  have hn3 : ∀ r ∈ chainStream longerChain, r.ty ≠ 50 := by decide +kernel
  obtain ⟨h1, h2, h3, h4, h5, _⟩ := (C56_accept_iff (dbg := false) (fun s hs => hsig s (ms s hs)) (by
    refine ⟨?_, ?_⟩
    · refine fun z _ => ⟨(0, []), (0, []), ?_⟩
      rintro n ⟨⟨_, _, _, _, _, _, h, _⟩, _⟩
      exact absurd rfl (hn3 _ h)
    · intro z s z' s' _ hs _ hx _ hs' _ hx' name _ _
      obtain ⟨a, b, _⟩ := mem_sigsBy.mp hs.1
      obtain ⟨a', b', _⟩ := mem_sigsBy.mp hs'.1
      rw [← b, ← b', hexp s (ms s a) hx, hexp s' (ms s' a') hx'])).mp ⟨5, _, hok⟩
  refine ⟨h1, h2, h3, h4, h5, ?_⟩
  intro z s hz hs _ hx
  obtain ⟨a, b, _⟩ := mem_sigsBy.mp hs.1
  have hs' := hexp s (ms s a) hx
  subst hs'
  have hz' : z = ⟨ascii "c."⟩ := b.symm
  subst hz'
  obtain ⟨⟨ksig, hk⟩, _⟩ := h1 _ hz
  refine ⟨_, wildSig_next, Or.inl ⟨longerChain, longerChain_ok, ?_, by decide +kernel, by decide +kernel, by decide +kernel⟩⟩
  intro n hn
  have hsb : ∀ n ∈ longerChain, (⟨n.name, 47, 8, 1, 3600, 2000000000, 1000000000, 20326, ⟨ascii "c."⟩, [1]⟩ : RRSig) ∈
        sigsBy (chainStream longerChain) ⟨ascii "c."⟩ ∧
      verifyRrsig wPlatform ⟨n.name, 47, 8, 1, 3600, 2000000000, 1000000000, 20326, ⟨ascii "c."⟩, [1]⟩
        (keysAt (chainStream longerChain) ⟨ascii "c."⟩) (rrset (chainStream longerChain) n.name 47) = .ok () := by decide +kernel
  obtain ⟨g1, g2⟩ := hsb n hn
  refine ⟨_, ksig, _, hz, hk, ⟨g1, g2⟩, ?_, rfl, rfl⟩
  show _ ∈ chainStream longerChain
  exact List.mem_append_right _ (List.mem_flatten.mpr ⟨_, List.mem_map.mpr ⟨n, hn, rfl⟩, by simp⟩)

/-- The address of `x.c.`, expanded from `*.c.`, with NSEC3 records, all signed. -/
def chain3Stream (chain : List (Bytes × NSec3)) : List RR :=
  wZone "." 0 ++ wDelegation "." "c." 1 ++ [wA "x.c.", wSig "x.c." 1 1 "c."] ++
    (chain.map fun e => [RR.nsec3 e.2, .rrsig ⟨e.2.name, 50, 8, 2, 3600, 2000000000, 1000000000, 20326, ⟨ascii "c."⟩, [1]⟩]).flatten

/-- The NSEC3 records of a zone with two names, of hashes zero and `hi` followed by zeroes. -/
def twoHashes (label : String) (hi : UInt8) : List (Bytes × NSec3) :=
  [(List.replicate 20 0, ⟨⟨ascii "00000000000000000000000000000000.c."⟩, 1, 0, 0, [], hi :: List.replicate 19 0,
      NSecTypeMask.fromTypes [2, 6, 46, 48, 51]⟩),
   (hi :: List.replicate 19 0, ⟨⟨ascii label ++ ascii ".c."⟩, 1, 0, 0, [], List.replicate 20 0, NSecTypeMask.fromTypes [1, 46]⟩)]

theorem twoHashes_ok (label : String) (hi : UInt8) (h0 : hi ≠ 0) (h1 : (46 : UInt8) ∉ ascii label)
    (h2 : (ascii label).map toUpper = base32hex (hi :: List.replicate 19 0)) :
    Nsec3Chain ⟨ascii "c."⟩ 0 [] (twoHashes label hi) := by
  have hpos : 0 < hi.toNat := Nat.pos_of_ne_zero fun h => h0 (UInt8.toNat_inj.mp h)
  refine ⟨by simp [twoHashes], ?_, ?_, ?_, ?_⟩
  · intro e he
    simp only [twoHashes, List.mem_cons, List.not_mem_nil, or_false] at he
    rcases he with rfl | rfl
    · have h3 : ascii "00000000000000000000000000000000.c." = ascii "00000000000000000000000000000000" ++ 46 :: ascii "c." := by decide +kernel
      have h4 : (ascii "00000000000000000000000000000000").map toUpper = base32hex (List.replicate 20 0) := by decide +kernel
      exact ⟨by simp, ascii "00000000000000000000000000000000", h3, by decide +kernel, h4⟩
    · exact ⟨by simp, ascii label, rfl, h1, h2⟩
  · simp only [twoHashes, List.pairwise_cons, List.mem_cons, List.not_mem_nil, or_false, forall_eq, false_imp_iff, implies_true,
      List.Pairwise.nil, and_true]
    exact .head 0 hi _ _ hpos
  · intro i e h
    match i, h with
    | 0, h => cases h; rfl
    | 1, h => cases h; rfl
    | i + 2, h => simp [twoHashes] at h
  · intro e he
    simp only [twoHashes, List.mem_cons, List.not_mem_nil, or_false] at he
    rcases he with rfl | rfl <;> exact ⟨rfl, rfl, rfl, rfl⟩

/-- **C83 is false** with NSEC3: a proof for the address of `x.c.`, whose toy hash starts with 120, with everything a zone with the hashes
zero and `5...` has, is rejected although the second record covers it; in a zone with the hashes zero and `121...` it is accepted. -/
theorem C83_fails_smallest_zone_nsec3 (dbg : Bool) :
    Nsec3Chain ⟨ascii "c."⟩ 0 [] (twoHashes "0k000000000000000000000000000000" 5) ∧
    (∃ e ∈ twoHashes "0k000000000000000000000000000000" 5, Nsec3Covers e.1 e.2 (iteratedHash wPlatform.sha1 [] (nameWire (ascii "x.c.")) 0)) ∧
    verifyRRStream dbg wPlatform 5 (chain3Stream (twoHashes "0k000000000000000000000000000000" 5)) = some (.err .invalid) ∧
    Nsec3Chain ⟨ascii "c."⟩ 0 [] (twoHashes "f4000000000000000000000000000000" 121) ∧
    verifyRRStream dbg wPlatform 5 (chain3Stream (twoHashes "f4000000000000000000000000000000" 121)) =
      some (.ok ⟨[wA "x.c."], 1000000000, 2000000000, 3600⟩) := by
  have hc := twoHashes_ok "0k000000000000000000000000000000" 5 (by decide) (by decide +kernel) (by decide +kernel)
  refine ⟨hc, C83_nsec3_complete hc (by decide +kernel), by cases dbg <;> decide +kernel,
    twoHashes_ok _ _ (by decide) (by decide +kernel) (by decide +kernel), by cases dbg <;> decide +kernel⟩

/-- That zone meets the hypotheses of `C83_fails_outside_hashes`. -/
example : let inp := chain3Stream (twoHashes "0k000000000000000000000000000000" 5)
    (∀ n, Authenticated (codeCheck wPlatform) wPlatform inp (.nsec3 n) → ∃ e ∈ twoHashes "0k000000000000000000000000000000" 5, e.2 = n) ∧
    (∀ n, ¬ Authenticated (codeCheck wPlatform) wPlatform inp (.nsec n)) ∧
    Reached (codeCheck wPlatform) wPlatform inp ⟨ascii "c."⟩ ∧ SignedBy (codeCheck wPlatform) inp ⟨ascii "c."⟩ wildSig ∧
    wA "x.c." ∈ inp ∧ Expanded wildSig ∧ NextCloser wildSig (ascii "x.c.") ∧
    ∀ e ∈ twoHashes "0k000000000000000000000000000000" 5, OctetLt e.1 (iteratedHash wPlatform.sha1 [] (nameWire (ascii "x.c.")) 0) := by
  refine ⟨?_, ?_, reached_c ⟨wRootSig, by decide +kernel⟩ (by decide +kernel), ⟨by decide +kernel, ?_⟩, by decide +kernel,
    ⟨by decide, by decide⟩, wildSig_next, by decide +kernel⟩
  · rintro n ⟨_, _, _, _, _, _, h, _⟩
    simp only [chain3Stream, wZone, wDelegation, wKey, wSig, wSigWith, wDs, wA, twoHashes, List.map_cons, List.map_nil, List.flatten_cons,
      List.flatten_nil, List.cons_append, List.nil_append, List.append_nil, List.mem_cons, List.not_mem_nil, or_false, RR.nsec3.injEq,
      reduceCtorEq, false_or] at h
    rcases h with rfl | rfl
    · exact ⟨_, List.mem_cons_self, rfl⟩
    · exact ⟨_, List.mem_cons_of_mem _ List.mem_cons_self, rfl⟩
  · rintro n ⟨_, _, _, _, _, _, h, _⟩
    simp [chain3Stream, wZone, wDelegation, wKey, wSig, wSigWith, wDs, wA, twoHashes] at h
  · show verifyRrsig _ _ _ _ = _
    decide +kernel

end Dnssec.Props
