import Verif.Props.Agreement
import Verif.Props.Split
import Verif.Props.Resolve

/-! # C113: what is missing from an answer does not exist -/

namespace Dnssec.Props

open Dnssec Spec

variable {dbg : Bool} {p : Platform} {fuel : Nat} {inp : List RR} {v : Verified}

/-- **C113, for the records of one set.** Whoever made the proof: if it verifies a record of type `ty` at the name `n`, then it verifies all
the data of the set that operators stand by at any time in the period returned. None can be left out. Missing: that there are no records
of a type if none is returned, which is false (next theorems). -/
theorem C113_sets_are_complete_partial {bs : Bytes} {W : Operators}
    (hp : parseRRStream dbg bs = .ok inp) (hv : verifyRRStream dbg p fuel inp = some (.ok v))
    (hroot : ∀ k : DnsKey, k.name = rootName → Anchored p ianaAnchors k → W.owns rootName k) {t : Nat} {n : Name} {ty : UInt16}
    (hh : ∀ z : Name, (∃ pre, n.bytes = pre ++ z.bytes) → HonestOperator p W z) (hone : OneAnswer W t n ty)
    (ht : v.validFrom ≤ t ∧ t < v.expires) (hn : ∃ r ∈ v.verifiedRrs, r.name = n ∧ r.ty = ty)
    {z : Name} {st : Statement} (hst : W.signed z st) (hty : st.ty = ty) (hown : OwnedBy n st.owner) (hf : InForce st t)
    {d : Bytes} (hd : d ∈ st.rdatas) : ∃ r ∈ v.verifiedRrs, r.name = n ∧ r.ty = ty ∧ rdata r = d := by
  obtain ⟨r, hr, rfl, rfl⟩ := hn
  obtain ⟨z', st', h1, _, _, h2, h3, h4, h5, h6, _⟩ := C69_only_signed_partial hp hv hroot hr hh
  exact (h4 d).mp ((hone z st z' st' hst h1 hty h2 hown h3 hf ⟨by omega, by omega⟩ d).mp hd)

/-- A list of records of one set has no record of another set to return. -/
private theorem not_returned {rrs : List RR} {n m : Name} {ty ty' : UInt16} (h : ∀ r ∈ rrs, r.name = m ∧ r.ty = ty')
    (hne : n ≠ m ∨ ty ≠ ty') {f : Nat} {l : List RR} (hl : resolveName rrs f n = some (.ok l)) : ∀ x ∈ l, x.ty ≠ ty := by
  intro x hx hxt
  by_cases ha : ty' = 5 ∨ ty' = 39
  · obtain ⟨_, h1, h2⟩ := C33_returned_records hl
    have := h x (h1 x hx).1
    obtain ⟨a, b⟩ := h2 x hx
    cases x <;> simp only [RR.ty] at this <;> rcases ha with rfl | rfl <;> first | exact a _ rfl | exact b _ rfl | exact absurd this.2 (by decide)
  · have hc : ∀ r ∈ rrs, ¬ CnameAt n r := by
      rintro r hr ⟨c, rfl, _⟩
      exact ha (Or.inl (h _ hr).2.symm)
    have hd : ∀ r ∈ rrs, ¬ DnameFor n r := by
      rintro r hr ⟨_, _, rfl, _⟩
      exact ha (Or.inr (h _ hr).2.symm)
    rw [C33_no_alias hc hd] at hl
    injection hl with hl
    injection hl with hl
    subst hl
    obtain ⟨h1, h2⟩ := List.mem_filter.mp hx
    obtain ⟨h3, h4⟩ := h x h1
    rcases hne with hne | hne
    · exact hne ((of_decide_eq_true h2).symm.trans h3)
    · exact hne (hxt.symm.trans h4)

/-- **C113 is false of every proof of two record sets**: whoever passes it on can leave records out such that `resolve_name` no longer
returns the records of the type of `r` at its name, although what is left is accepted and verifies `r'`, for at least as long. -/
theorem C113_fails_in_every_proof (h : verifyRRStream dbg p fuel inp = some (.ok v)) {r r' : RR} (hr' : r' ∈ v.verifiedRrs)
    (hne : r.name ≠ r'.name ∨ r.ty ≠ r'.ty) {z : Name} {s : RRSig} (hz : Reached (codeCheck p) p inp z) (hs : SignedBy (codeCheck p) inp z s)
    (hsn : r'.name = s.name) (hst : r'.ty = s.ty) (hx : ¬ Expanded s) :
    ∃ part, part.Sublist inp ∧ ∃ fuel' v', verifyRRStream dbg p fuel' part = some (.ok v') ∧ r' ∈ v'.verifiedRrs ∧
      v'.validFrom ≤ v.validFrom ∧ v.expires ≤ v'.expires ∧
      ∀ f l, resolveName v'.verifiedRrs f r.name = some (.ok l) → ∀ x ∈ l, x.ty ≠ r.ty := by
  obtain ⟨part, hsub, fuel', v', h', hv, h1, h2, _⟩ := C102_alone_partial h hr' hz hs hsn hst hx
  obtain ⟨⟨_, _, _, _, _, _, hin, _⟩, _⟩ := (C27_exact h r').mp hr'
  exact ⟨part, hsub, fuel', v', h', (hv r').mpr ⟨hin, rfl, rfl⟩, h1, h2,
    fun f l hl => not_returned (fun x hx => ((hv x).mp hx).2) hne hl⟩

/-- The hypotheses are met by a proof of an address and a text, which can be left out. With it, `resolve_name` returns it. -/
example : let v : Verified := ⟨[wA "a.c.", .txt ⟨⟨ascii "b.c."⟩, [104, 105]⟩], 1000000000, 2000000000, 3600⟩
    let s : RRSig := ⟨⟨ascii "a.c."⟩, 1, 8, 2, 3600, 2000000000, 1000000000, 20326, ⟨ascii "c."⟩, [1]⟩
    verifyRRStream false wPlatform 5 twoRecords = some (.ok v) ∧
    resolveName v.verifiedRrs 0 ⟨ascii "b.c."⟩ = some (.ok [.txt ⟨⟨ascii "b.c."⟩, [104, 105]⟩]) ∧
    wA "a.c." ∈ v.verifiedRrs ∧ (∃ z, Reached (codeCheck wPlatform) wPlatform twoRecords z ∧ SignedBy (codeCheck wPlatform) twoRecords z s) ∧
    ¬ Expanded s := by
  refine ⟨by decide +kernel, by decide +kernel, by decide, ?_, fun h => absurd h.1 (by decide +kernel)⟩
  have h : verifyRRStream false wPlatform 5 twoRecords =
      some (.ok ⟨[wA "a.c.", .txt ⟨⟨ascii "b.c."⟩, [104, 105]⟩], 1000000000, 2000000000, 3600⟩) := by decide +kernel
  obtain ⟨⟨z, _, s, h1, _, h2, _, h3, h4⟩, _⟩ := (C27_exact h (wA "a.c.")).mp (by decide)
  have hs : ∀ s ∈ twoRecords.filterMap (fun | .rrsig s => some s | _ => none), (wA "a.c.").name = s.name → (wA "a.c.").ty = s.ty →
      s = ⟨⟨ascii "a.c."⟩, 1, 8, 2, 3600, 2000000000, 1000000000, 20326, ⟨ascii "c."⟩, [1]⟩ := by decide +kernel
  obtain rfl := hs s (List.mem_filterMap.mpr ⟨_, (mem_sigsBy.mp h2.1).1, rfl⟩) h3 h4
  exact ⟨z, h1, h2⟩

/-- `com.` has signed an address of `a.com.` and a certificate for its web server. -/
def oDane : List Statement :=
  [oSt "com." 1 [ascii "a", ascii "com"] [1, 2, 3, 4], oSt "com." 52 [ascii "_443", ascii "_tcp", ascii "a", ascii "com"] [3, 1, 1, 9]]

/-- **C113 is false**: with honest operators only, one of whom has signed a TLSA record for the web server of `a.com.`, a proof is accepted
from which `resolve_name` returns nothing for it. -/
theorem C113_fails_for_tlsa : ∃ bs v, let p := oPlatform false oDane
    parseRRStream false bs = .ok oStream ∧ verifyRRStream false p 3 oStream = some (.ok v) ∧
    (∀ k : DnsKey, k.name = rootName → Anchored p ianaAnchors k → (oWorld oDane).owns rootName k) ∧
    (∀ z, HonestOperator p (oWorld oDane) z) ∧
    (∃ st, (oWorld oDane).signed ⟨ascii "com."⟩ st ∧ st.ty = 52 ∧ HasLabels ⟨ascii "_443._tcp.a.com."⟩ st.owner ∧ st.rdatas ≠ [] ∧
      InForce st 1500000000) ∧ v.validFrom ≤ 1500000000 ∧ 1500000000 < v.expires ∧
    resolveName v.verifiedRrs 0 ⟨ascii "_443._tcp.a.com."⟩ = some (.ok []) := by
  refine ⟨(oStream.map (writeRR · 0)).flatten, ⟨[wA "a.com."], 1000000000, 2000000000, 3600⟩, by decide +kernel, by decide +kernel,
    fun _ => oRoot, fun _ => oHonest (by decide) (fun h => absurd h (by decide)),
    ⟨oSt "com." 52 [ascii "_443", ascii "_tcp", ascii "a", ascii "com"] [3, 1, 1, 9], ?_, rfl, by decide, by decide, by decide, by decide⟩, by decide, by decide,
    by decide +kernel⟩
  show _ ∈ oSigned oDane
  simp [oSigned, oDane]

/-- `com.` has signed two addresses of `a.com.`. -/
def oTwo : List Statement := [{ oSt "com." 1 [ascii "a", ascii "com"] [] with rdatas := [[1, 2, 3, 4], [5, 6, 7, 8]] }]

/-- A proof of both. -/
def oTwoStream : List RR := oPath ++ [wA "a.com.", .a ⟨⟨ascii "a.com."⟩, ⟨[5, 6, 7, 8], rfl⟩⟩, oSig "a.com." 1 2 "com."]

/-- The hypotheses of `C113_sets_are_complete_partial` are met by a proof of both addresses. One with only one of them is rejected. -/
example : let p := oPlatform false oTwo
    (∃ bs v, parseRRStream false bs = .ok oTwoStream ∧ verifyRRStream false p 3 oTwoStream = some (.ok v) ∧
      wA "a.com." ∈ v.verifiedRrs ∧ v.validFrom ≤ 1500000000 ∧ 1500000000 < v.expires) ∧
    (∀ k : DnsKey, k.name = rootName → Anchored p ianaAnchors k → (oWorld oTwo).owns rootName k) ∧
    (∀ z, HonestOperator p (oWorld oTwo) z) ∧ OneAnswer (oWorld oTwo) 1500000000 ⟨ascii "a.com."⟩ 1 ∧
    (∃ st, (oWorld oTwo).signed ⟨ascii "com."⟩ st ∧ st.ty = 1 ∧ HasLabels ⟨ascii "a.com."⟩ st.owner ∧ InForce st 1500000000 ∧
      [5, 6, 7, 8] ∈ st.rdatas) ∧
    verifyRRStream false p 3 oStream = some (.err .invalid) := by
  have hone : ∀ a ∈ oSigned oTwo, ∀ b ∈ oSigned oTwo, a.2.ty = b.2.ty → a.2.ty = 1 → a.2.rdatas = b.2.rdatas := by
    decide +kernel
  refine ⟨⟨(oTwoStream.map (writeRR · 0)).flatten, ⟨[wA "a.com.", .a ⟨⟨ascii "a.com."⟩, ⟨[5, 6, 7, 8], rfl⟩⟩], 1000000000, 2000000000, 3600⟩,
    by decide +kernel, by decide +kernel, by simp, by decide, by decide⟩, fun _ => oRoot,
    fun _ => oHonest (by decide) (fun h => absurd h (by decide)), ?_,
    ⟨{ oSt "com." 1 [ascii "a", ascii "com"] [] with rdatas := [[1, 2, 3, 4], [5, 6, 7, 8]] }, ?_, rfl, by decide, ⟨by decide, by decide⟩, by decide⟩,
    by decide +kernel⟩
  · intro z st z' st' h h' a b _ _ _ _ d
    rw [hone _ h _ h' (a.trans b.symm) a]
  · show _ ∈ oSigned oTwo
    simp [oSigned, oTwo]

end Dnssec.Props
