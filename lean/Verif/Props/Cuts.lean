import Verif.Spec.Cuts
import Verif.Props.Operators

/-! # C118: a zone has no say about names that it has delegated -/

namespace Dnssec.Props

open Dnssec Spec

variable {dbg : Bool} {p : Platform} {fuel : Nat} {bs : Bytes} {inp : List RR} {v : Verified} {W : Operators}

/-- **C118 (partial).** If all operators are honest and respect the delegations they make, every record returned was signed by an operator
who has not delegated its name, or, for a wildcard, by one whose zone has an NSEC or NSEC3 record that denies, in the sense of
the code, a name on the way from the wildcard's parent to the record's name. Missing: that operators of the second kind have not delegated the name
(`C118_fails_through_wildcards`). -/
theorem C118_signer_partial (hparse : parseRRStream dbg bs = .ok inp) (hv : verifyRRStream dbg p fuel inp = some (.ok v))
    (hroot : ∀ k : DnsKey, k.name = rootName → Anchored p ianaAnchors k → W.owns rootName k) (hh : ∀ z, HonestOperator p W z)
    (hcut : RespectsCuts W) {r : RR} (hr : r ∈ v.verifiedRrs) {ls : List Bytes} (hl : HasLabels r.name ls) :
    ∃ z st, W.signed z st ∧ st.ty = r.ty ∧ rdata r ∈ st.rdatas ∧
      (st.owner = ls ∧ ¬ DelegatedBy W z ls ∨
       ∃ pre next suf, ls = pre ++ next :: suf ∧ st.owner = ascii "*" :: suf ∧ ∃ z' st', W.signed z' st' ∧
        ((∃ n : NSec, st'.ty = 47 ∧ HasLabels n.name st'.owner ∧ rdata (.nsec n) ∈ st'.rdatas ∧
            NsecDenies n (text (next :: suf)) r.ty) ∨
         (∃ n : NSec3, st'.ty = 50 ∧ HasLabels n.name st'.owner ∧ rdata (.nsec3 n) ∈ st'.rdatas ∧
            Nsec3Denies p n (text (next :: suf)) r.ty))) := by
  obtain ⟨z, st, h1, h2, h3, h4⟩ := C70_wildcard_denied_partial hparse hv hroot hh hr hl
  obtain ⟨_, n43, n47, n50⟩ := (C27_exact hv r).mp hr
  refine ⟨z, st, h1, h2, h3, ?_⟩
  rcases h4 with rfl | h4
  · exact .inl ⟨rfl, hcut z st h1 (h2 ▸ n43) (h2 ▸ n47) (h2 ▸ n50)⟩
  · exact .inr h4

/-- **C118 (partial).** If moreover no operator delegates names below the parent of one of their wildcards, every record returned was
signed by an operator who has not delegated its name. Missing: zones with both, for which this is false (`C118_fails_through_wildcards`). -/
theorem C118_wildcards_apart_partial (hparse : parseRRStream dbg bs = .ok inp) (hv : verifyRRStream dbg p fuel inp = some (.ok v))
    (hroot : ∀ k : DnsKey, k.name = rootName → Anchored p ianaAnchors k → W.owns rootName k) (hh : ∀ z, HonestOperator p W z)
    (hcut : RespectsCuts W)
    (hapart : ∀ z st cut suf, W.signed z st → W.signed z cut → cut.ty = 43 → st.owner = ascii "*" :: suf → ¬ AtOrBelow cut.owner suf)
    {r : RR} (hr : r ∈ v.verifiedRrs) {ls : List Bytes} (hl : HasLabels r.name ls) :
    ∃ z st, W.signed z st ∧ st.ty = r.ty ∧ rdata r ∈ st.rdatas ∧ ¬ DelegatedBy W z ls ∧
      (st.owner = ls ∨ ∃ pre next suf, ls = pre ++ next :: suf ∧ st.owner = ascii "*" :: suf) := by
  obtain ⟨z, st, h1, h2, h3, ⟨h4, h5⟩ | ⟨pre, next, suf, e, h4, _⟩⟩ := C118_signer_partial hparse hv hroot hh hcut hr hl
  · exact ⟨z, st, h1, h2, h3, h5, .inl h4⟩
  · obtain ⟨_, n43, n47, n50⟩ := (C27_exact hv r).mp hr
    refine ⟨z, st, h1, h2, h3, ?_, .inr ⟨pre, next, suf, e, h4⟩⟩
    rintro ⟨cut, c1, c2, q, hq⟩
    -- the delegated name and the wildcard's parent are both at the end of `ls`
    have e2 : q ++ cut.owner = (pre ++ [next]) ++ suf := by rw [← hq, e]; simp
    rcases List.append_eq_append_iff.mp e2 with ⟨x, _, h6⟩ | ⟨x, _, h6⟩
    · exact hapart z st cut suf h1 c1 c2 h4 ⟨x, h6⟩
    · exact hcut z st h1 (h2 ▸ n43) (h2 ▸ n47) (h2 ▸ n50) ⟨cut, c1, c2, ascii "*" :: x, by rw [h4, h6]; rfl⟩

/-- **C118 (partial).** In a world without wildcards, every record returned was signed, under its own name, by an operator who has not
delegated its name. Missing: wildcards. -/
theorem C118_without_wildcards_partial (hparse : parseRRStream dbg bs = .ok inp) (hv : verifyRRStream dbg p fuel inp = some (.ok v))
    (hroot : ∀ k : DnsKey, k.name = rootName → Anchored p ianaAnchors k → W.owns rootName k) (hh : ∀ z, HonestOperator p W z)
    (hcut : RespectsCuts W) (hwild : ∀ z st, W.signed z st → st.owner.head? ≠ some (ascii "*"))
    {r : RR} (hr : r ∈ v.verifiedRrs) {ls : List Bytes} (hl : HasLabels r.name ls) :
    ∃ z st, W.signed z st ∧ st.ty = r.ty ∧ rdata r ∈ st.rdatas ∧ st.owner = ls ∧ ¬ DelegatedBy W z ls := by
  obtain ⟨z, st, h1, h2, h3, ⟨h4, h5⟩ | ⟨pre, next, suf, _, h4, _⟩⟩ := C118_signer_partial hparse hv hroot hh hcut hr hl
  · exact ⟨z, st, h1, h2, h3, h4, h5⟩
  · exact absurd (by rw [h4]; rfl) (hwild z st h1)

/-- The operators of the examples delegate `com.` and `oogle.com.`. -/
theorem oDelegated {more : List Statement} (hm : oOrdinary more) {z : Name} {l : List Bytes} (h : DelegatedBy (oWorld more) z l) :
    z = rootName ∧ AtOrBelow l [ascii "com"] ∨ z = ⟨ascii "com."⟩ ∧ AtOrBelow l [ascii "oogle", ascii "com"] := by
  obtain ⟨cut, h1, h2, h3⟩ := h
  rcases oSigned_cases h1 with ⟨rfl, rfl⟩ | ⟨rfl, rfl⟩ | ⟨rfl, rfl⟩ | ⟨rfl, rfl⟩ | ⟨rfl, h⟩
  · exact absurd h2 (by decide)
  · exact .inl ⟨rfl, h3⟩
  · exact absurd h2 (by decide)
  · exact .inr ⟨rfl, h3⟩
  · exact absurd h2 (hm cut h).1.1

theorem oRespects {more : List Statement} (hm : oOrdinary more) (hb : ∀ st ∈ more, st.ty ≠ 47 → st.owner.drop (st.owner.length - 2) ≠ [ascii "oogle", ascii "com"]) :
    RespectsCuts (oWorld more) := by
  have drop2 : ∀ l : List Bytes, AtOrBelow l [ascii "oogle", ascii "com"] → l.drop (l.length - 2) = [ascii "oogle", ascii "com"] := by
    rintro l ⟨pre, rfl⟩
    simp
  have drop1 : ∀ l : List Bytes, AtOrBelow l [ascii "com"] → l ≠ [] := by
    rintro l ⟨pre, rfl⟩
    simp
  intro z st hs h43 h47 h50 hd
  rcases oSigned_cases hs with ⟨rfl, rfl⟩ | ⟨rfl, rfl⟩ | ⟨rfl, rfl⟩ | ⟨rfl, rfl⟩ | ⟨rfl, h⟩
  · rcases oDelegated hm hd with ⟨_, h⟩ | ⟨h, _⟩
    · exact drop1 _ h rfl
    · exact absurd h (by decide)
  · exact absurd rfl h43
  · rcases oDelegated hm hd with ⟨h, _⟩ | ⟨_, h⟩
    · exact absurd h (by decide)
    · exact absurd (drop2 _ h) (by decide)
  · exact absurd rfl h43
  · rcases oDelegated hm hd with ⟨h, _⟩ | ⟨_, h'⟩
    · exact absurd h (by decide)
    · exact hb st h h47 (drop2 _ h')

/-- The hypotheses of both theorems are met by the example of C69, with delegations and without wildcards. -/
example : ∃ bs v, parseRRStream false bs = .ok oStream ∧ verifyRRStream false (oPlatform false oAddress) 3 oStream = some (.ok v) ∧
    wA "a.com." ∈ v.verifiedRrs ∧ HasLabels (wA "a.com.").name [ascii "a", ascii "com"] ∧
    (∀ k : DnsKey, k.name = rootName → Anchored (oPlatform false oAddress) ianaAnchors k → (oWorld oAddress).owns rootName k) ∧
    (∀ z, HonestOperator (oPlatform false oAddress) (oWorld oAddress) z) ∧ RespectsCuts (oWorld oAddress) ∧
    (∀ z st, (oWorld oAddress).signed z st → st.owner.head? ≠ some (ascii "*")) ∧
    DelegatedBy (oWorld oAddress) ⟨ascii "com."⟩ [ascii "www", ascii "oogle", ascii "com"] := by
  refine ⟨(oStream.map (writeRR · 0)).flatten, ⟨[wA "a.com."], 1000000000, 2000000000, 3600⟩, by decide +kernel, by decide +kernel,
    by simp, by decide, fun _ => oRoot, fun _ => oHonest (by decide) (fun h => absurd h (by decide)), oRespects (by decide) (by decide), ?_,
    ⟨_, .tail _ (.tail _ (.tail _ (.head _))), rfl, [ascii "www"], rfl⟩⟩
  have h1 : ∀ e ∈ oSigned oAddress, e.2.owner.head? ≠ some (ascii "*") := by decide +kernel
  exact fun z st h => h1 _ h

/-- `com.` has a wildcard below `b.com.` and a delegation elsewhere. -/
def oApart : List Statement :=
  [{ oSt "com." 1 [ascii "*", ascii "b", ascii "com"] [1, 2, 3, 4] with labels := 2 },
   oSt "com." 47 [ascii "b", ascii "com"] (oNsecData [ascii "z", ascii "com"])]

/-- The address of `x.b.com.`, from the wildcard. -/
def oApartStream : List RR := oPath ++ [wA "x.b.com.", oSig "x.b.com." 1 2 "com.", oNsec "b.com." "z.com.", oSig "b.com." 47 2 "com."]

/-- The hypotheses of `C118_wildcards_apart_partial` are met by a proof with a wildcard, in a zone that delegates. -/
example : ∃ v, verifyRRStream false (oPlatform false oApart) 3 oApartStream = some (.ok v) ∧
    (∃ bs, parseRRStream false bs = .ok oApartStream) ∧
    wA "x.b.com." ∈ v.verifiedRrs ∧ HasLabels (wA "x.b.com.").name [ascii "x", ascii "b", ascii "com"] ∧
    (∀ k : DnsKey, k.name = rootName → Anchored (oPlatform false oApart) ianaAnchors k → (oWorld oApart).owns rootName k) ∧
    (∀ z, HonestOperator (oPlatform false oApart) (oWorld oApart) z) ∧ RespectsCuts (oWorld oApart) ∧
    (∀ z st cut suf, (oWorld oApart).signed z st → (oWorld oApart).signed z cut → cut.ty = 43 → st.owner = ascii "*" :: suf →
      ¬ AtOrBelow cut.owner suf) ∧
    DelegatedBy (oWorld oApart) ⟨ascii "com."⟩ [ascii "www", ascii "oogle", ascii "com"] := by
  refine ⟨⟨[wA "x.b.com."], 1000000000, 2000000000, 3600⟩, by decide +kernel, ⟨(oApartStream.map (writeRR · 0)).flatten, ?_⟩,
    by simp, by decide, fun _ => oRoot, fun _ => oHonest (by decide) (fun h => absurd h (by decide)), oRespects (by decide) (by decide), ?_,
    ⟨_, .tail _ (.tail _ (.tail _ (.head _))), rfl, [ascii "www"], rfl⟩⟩
  · rw [parseRRStream_iff]
    refine ⟨oApartStream.map (fun r => (writeRR r 0, r)), by simp [Function.comp_def], by simp [Function.comp_def], ?_⟩
    intro q hq
    obtain ⟨r, hr, rfl⟩ := List.mem_map.mp hq
    have h : (oPath ++ [wA "x.b.com.", oSig "x.b.com." 1 2 "com.", oSig "b.com." 47 2 "com."]).all
      (fun r => decide (parseRR false (writeRR r 0) = .ok (r, []))) = true := by decide +kernel
    by_cases e : r = oNsec "b.com." "z.com."
    · subst e
      have h1 : HasLabels ⟨ascii "b.com."⟩ [ascii "b", ascii "com"] := by decide
      have h2 : HasLabels ⟨ascii "z.com."⟩ [ascii "z", ascii "com"] := by decide
      have h3 : (rdata (oNsec "b.com." "z.com.")).length ≤ 65535 := by
        have a1 := writeName_length_le (ascii "z.com.")
        have a2 := h2.short
        have a3 := writeNsecTypesBitmap_length_le (NSecTypeMask.fromTypes [1, 46, 47])
        simp only at a2
        rw [oNsec, rdata_nsec, List.length_append]
        simp only
        omega
      have he : Encodable (oNsec "b.com." "z.com.") := ⟨⟨_, h1⟩, by simpa [oNsec, rdataNames] using ⟨_, h2⟩, by simp [oNsec], h3, by simp [oNsec]⟩
      have := parseRR_write false _ he 0 []
      simpa using this
    · rw [List.all_eq_true] at h
      apply of_decide_eq_true
      apply h
      simp only [oApartStream, List.mem_append, List.mem_cons, List.not_mem_nil, or_false] at hr ⊢
      rcases hr with hr | hr | hr | hr | hr
      · exact .inl hr
      · exact .inr (.inl hr)
      · exact .inr (.inr (.inl hr))
      · exact absurd hr e
      · exact .inr (.inr (.inr hr))
  · intro z st cut suf h1 h2 h3 h4 ⟨x, h5⟩
    have hw : ∀ e ∈ oSigned oApart, e.2.owner.head? = some (ascii "*") → e.2.owner = [ascii "*", ascii "b", ascii "com"] := by decide +kernel
    have hc : ∀ e ∈ oSigned oApart, e.2.ty = 43 → (e.2.owner.drop (e.2.owner.length - 2)) ≠ [ascii "b", ascii "com"] := by decide +kernel
    have e1 := hw _ h1 (by simp only [h4]; rfl)
    rw [h4] at e1
    have e2 : suf = [ascii "b", ascii "com"] := (List.cons.inj e1).2
    refine hc _ h2 h3 ?_
    simp only
    rw [h5, e2]
    simp

/-- `com.` has a wildcard with an address, and a truthful NSEC record at the delegation of `oogle.com.`. -/
def oCut : List Statement :=
  [oWildcard 1 [1, 2, 3, 4], oSt "com." 47 [ascii "oogle", ascii "com"] (wire [ascii "z", ascii "com"] ++ [0, 6, 0x20, 0, 0, 0, 0, 0x13])]

/-- That record: the types are NS, DS, RRSIG and NSEC. -/
def oCutNsec : RR := .nsec ⟨⟨ascii "oogle.com."⟩, ⟨ascii "z.com."⟩, NSecTypeMask.fromTypes [2, 43, 46, 47]⟩

/-- A proof for `www.oogle.com.`, from the wildcard of `com.`. -/
def oCutStream : List RR :=
  oPath ++ [wA "www.oogle.com.", oSig "www.oogle.com." 1 1 "com.", oCutNsec, oSig "oogle.com." 47 2 "com."]

/-- **C118 is false** with wildcards: all operators are honest and respect the delegations they make, and `com.` has delegated `oogle.com.`, but the
address of its own wildcard is returned for `www.oogle.com.`. The record that shows the delegation is taken for a denial. -/
theorem C118_fails_through_wildcards : ∃ bs v, parseRRStream false bs = .ok oCutStream ∧
    verifyRRStream false (oPlatform false oCut) 3 oCutStream = some (.ok v) ∧
    (∀ k : DnsKey, k.name = rootName → Anchored (oPlatform false oCut) ianaAnchors k → (oWorld oCut).owns rootName k) ∧
    (∀ z, HonestOperator (oPlatform false oCut) (oWorld oCut) z) ∧ RespectsCuts (oWorld oCut) ∧
    wA "www.oogle.com." ∈ v.verifiedRrs ∧ HasLabels (wA "www.oogle.com.").name [ascii "www", ascii "oogle", ascii "com"] ∧
    (∀ s, RR.rrsig s ∈ oCutStream → s.name = (wA "www.oogle.com.").name → s.keyName = ⟨ascii "com."⟩) ∧
    DelegatedBy (oWorld oCut) ⟨ascii "com."⟩ [ascii "www", ascii "oogle", ascii "com"] := by
  refine ⟨(oCutStream.map (writeRR · 0)).flatten, ⟨[wA "www.oogle.com."], 1000000000, 2000000000, 3600⟩, ?_, by decide +kernel,
    fun _ => oRoot, fun _ => oHonest (by decide) (fun h => absurd h (by decide)), oRespects (by decide) (by decide), by simp, by decide, ?_,
    ⟨_, .tail _ (.tail _ (.tail _ (.head _))), rfl, [ascii "www"], rfl⟩⟩
  · rw [parseRRStream_iff]
    refine ⟨oCutStream.map (fun r => (writeRR r 0, r)), by simp [Function.comp_def], by simp [Function.comp_def], ?_⟩
    intro q hq
    obtain ⟨r, hr, rfl⟩ := List.mem_map.mp hq
    have h : (oPath ++ [wA "www.oogle.com.", oSig "www.oogle.com." 1 1 "com.", oSig "oogle.com." 47 2 "com."]).all
      (fun r => decide (parseRR false (writeRR r 0) = .ok (r, []))) = true := by decide +kernel
    by_cases e : r = oCutNsec
    · subst e
      have h1 : HasLabels ⟨ascii "oogle.com."⟩ [ascii "oogle", ascii "com"] := by decide
      have h2 : HasLabels ⟨ascii "z.com."⟩ [ascii "z", ascii "com"] := by decide
      have h3 : (rdata oCutNsec).length ≤ 65535 := by
        have a1 := writeName_length_le (ascii "z.com.")
        have a2 := h2.short
        have a3 := writeNsecTypesBitmap_length_le (NSecTypeMask.fromTypes [2, 43, 46, 47])
        simp only at a2
        rw [oCutNsec, rdata_nsec, List.length_append]
        simp only
        omega
      have he : Encodable oCutNsec := ⟨⟨_, h1⟩, by simpa [oCutNsec, rdataNames] using ⟨_, h2⟩, by simp [oCutNsec], h3, by simp [oCutNsec]⟩
      have := parseRR_write false oCutNsec he 0 []
      simpa using this
    · rw [List.all_eq_true] at h
      apply of_decide_eq_true
      apply h
      simp only [oCutStream, List.mem_append, List.mem_cons, List.not_mem_nil, or_false] at hr ⊢
      rcases hr with hr | hr | hr | hr | hr
      · exact .inl hr
      · exact .inr (.inl hr)
      · exact .inr (.inr (.inl hr))
      · exact absurd hr e
      · exact .inr (.inr (.inr hr))
  · intro s hs hn
    simp only [oCutStream, oPath, oCutNsec, oSig, wA, List.cons_append, List.nil_append, List.mem_cons, List.not_mem_nil, or_false,
      RR.rrsig.injEq, reduceCtorEq, false_or] at hs
    rcases hs with rfl | rfl | rfl | rfl | rfl
    · exact absurd hn (by decide)
    · exact absurd hn (by decide)
    · exact absurd hn (by decide)
    · rfl
    · exact absurd hn (by decide)

/-- **C118 is false** of the code alone: nothing stops a zone from signing for what it has delegated. Here `c.` signs the address of `a.b.c.`, and the
same proof contains its delegation of `b.c.`. -/
theorem C118_fails_below_delegation (dbg : Bool) :
    verifyRRStream dbg wPlatform 5 (wZone "." 0 ++ wDelegation "." "c." 1 ++ wDelegation "c." "b.c." 2 ++ [wA "a.b.c.", wSig "a.b.c." 1 3 "c."]) =
      some (.ok ⟨[wA "a.b.c."], 1000000000, 2000000000, 3600⟩) := by cases dbg <;> decide +kernel

end Dnssec.Props
