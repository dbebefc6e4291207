import Verif.Props.Chain

/-! # C84: wildcards in the chain of trust -/

namespace Dnssec.Props

open Dnssec Spec

variable {dbg : Bool} {p : Platform} {inp : List RR} {fuel : Nat} {v : Verified}

/-- The zone `c.` has a name `x.c.`, with an address and (as the signed NSEC record says) without DS records, and a DS set at the wildcard `*.c.`. Whoever has
the keys it vouches for presents it as the DS set of `x.c.`, and signs another address. -/
def wildDs : List RR :=
  wZone "." 0 ++ wDelegation "." "c." 1 ++ [.nsec ⟨⟨ascii "x.c."⟩, ⟨ascii "z.c."⟩, NSecTypeMask.fromTypes [1, 46, 47]⟩, wSig "x.c." 47 2 "c."] ++
    [wDs "x.c.", wSig "x.c." 43 1 "c."] ++ wZone "x.c." 2 ++ [wA "x.c.", wSig "x.c." 1 2 "x.c."]

/-- **C84 is false** for DS records: the DS set of `*.c.` is taken for that of `x.c.`, without a denial, and even though the proof contains a record, signed by
`c.`, which shows that `x.c.` exists and has no DS records. The address signed with the keys of the wildcard is accepted. -/
theorem C84_fails_for_ds (dbg : Bool) :
    verifyRRStream dbg wPlatform 5 wildDs = some (.ok ⟨[wA "x.c."], 1000000000, 2000000000, 3600⟩) ∧
    (∃ s, RR.rrsig s ∈ wildDs ∧ s.ty = 43 ∧ s.name = ⟨ascii "x.c."⟩ ∧ s.keyName = ⟨ascii "c."⟩ ∧ s.labels = 1) ∧
    (∀ s, RR.rrsig s ∈ wildDs → s.ty = 1 → s.keyName = ⟨ascii "x.c."⟩) ∧
    ∃ n, RR.nsec n ∈ wildDs ∧ n.name = ⟨ascii "x.c."⟩ ∧ n.types.containsType 1 = true ∧ n.types.containsType 43 = false := by
  refine ⟨by cases dbg <;> decide +kernel, ⟨⟨⟨ascii "x.c."⟩, 43, 8, 1, 3600, 2000000000, 1000000000, 20326, ⟨ascii "c."⟩, [1]⟩, by decide +kernel⟩, ?_,
    ⟨⟨ascii "x.c."⟩, ⟨ascii "z.c."⟩, NSecTypeMask.fromTypes [1, 46, 47]⟩, by simp [wildDs], rfl, by decide +kernel, by decide +kernel⟩
  intro s hs ht
  simp only [wildDs, wZone, wDelegation, wKey, wSig, wSigWith, wDs, wA, List.cons_append, List.nil_append, List.mem_cons, List.not_mem_nil,
    or_false, RR.rrsig.injEq, reduceCtorEq, false_or] at hs
  rcases hs with rfl | rfl | rfl | rfl | rfl | rfl | rfl <;> first | rfl | exact absurd ht (by decide)

/-- A key set at `*.c.`, signed as such, presented as that of `x.c.`. -/
def wildKeys : List RR :=
  wZone "." 0 ++ wDelegation "." "c." 1 ++ [wDs "x.c.", wSig "x.c." 43 2 "c."] ++ wZone "x.c." 1 ++ [wA "x.c.", wSig "x.c." 1 2 "x.c."]

/-- **C84 is false** for key sets: one that was signed for a wildcard is accepted for another name, without a denial. -/
theorem C84_fails_for_dnskey (dbg : Bool) :
    verifyRRStream dbg wPlatform 5 wildKeys = some (.ok ⟨[wA "x.c."], 1000000000, 2000000000, 3600⟩) ∧
    (∀ s, RR.rrsig s ∈ wildKeys → s.ty = 48 → s.name = ⟨ascii "x.c."⟩ → s.labels = 1) ∧
    ∀ r ∈ wildKeys, r.ty ≠ 47 ∧ r.ty ≠ 50 := by
  refine ⟨by cases dbg <;> decide +kernel, ?_, by decide +kernel⟩
  intro s hs ht hn
  simp only [wildKeys, wZone, wDelegation, wKey, wSig, wSigWith, wDs, wA, List.cons_append, List.nil_append, List.mem_cons, List.not_mem_nil,
    or_false, RR.rrsig.injEq, reduceCtorEq, false_or] at hs
  rcases hs with rfl | rfl | rfl | rfl | rfl | rfl <;> first | rfl | exact absurd ht (by decide) | exact absurd hn (by decide)

/-- **C84 (partial).** If no signature over DS or DNSKEY records is for a wildcard, every signature for a wildcard that is used at all comes with a denial of the next
closer name. Missing: the signatures excluded, for which this is false. -/
theorem C84_denials_partial (h : verifyRRStream dbg p fuel inp = some (.ok v))
    (hno : ∀ s, RR.rrsig s ∈ inp → s.ty = 43 ∨ s.ty = 48 → s.labels = s.name.labels)
    (s : RRSig) (hu : Used (codeCheck p) p inp s) (hx : Expanded s) (r : RR) (hr : r ∈ inp) (hn : r.name = s.name) (ht : r.ty = s.ty)
    (name : Bytes) (hc : NextCloser s name) : Denied (codeCheck p) p inp name s.ty := by
  obtain ⟨z, hz, hk | hs⟩ := hu
  · obtain ⟨_, before, after, he, _⟩ := hk
    have hm : s ∈ keySigs inp z := by rw [he]; simp
    obtain ⟨a, _, b⟩ := mem_keySigs.mp hm
    exact absurd (hno s a (Or.inr b)) hx.1
  · have hds : s.ty ≠ 43 := fun e => hx.1 (hno s (mem_sigsBy.mp hs.1).1 (Or.inl e))
    obtain ⟨pre, next, suf, hl, hlen, rfl⟩ := hc
    obtain ⟨pre', next', suf', he, hlen', hd⟩ := C28_wildcard_needs_denial h z s hz hs r hr hn ht hds hx _ hl
    have hsuf : next :: suf = next' :: suf' := by
      have := congrArg (fun l => l.drop (l.length - (suf.length + 1))) he
      simp only [List.length_append, List.length_cons] at this
      rw [show pre.length + (suf.length + 1) - (suf.length + 1) = pre.length by omega,
        show pre'.length + (suf'.length + 1) - (suf.length + 1) = pre'.length by omega] at this
      simpa using this
    rwa [← hsuf] at hd

/-- The zone with one name after `x.c.` (C83) meets the hypotheses. -/
example : (∃ v, verifyRRStream true wPlatform 5 (chainStream longerChain) = some (.ok v)) ∧
    (∀ s, RR.rrsig s ∈ chainStream longerChain → s.ty = 43 ∨ s.ty = 48 → s.labels = s.name.labels) ∧
    Used (codeCheck wPlatform) wPlatform (chainStream longerChain) wildSig ∧ Expanded wildSig ∧ wA "x.c." ∈ chainStream longerChain ∧
    NextCloser wildSig (ascii "x.c.") := by
  have hsig : ∀ s ∈ (chainStream longerChain).filterMap (fun | .rrsig s => some s | _ => none),
      s.ty = 43 ∨ s.ty = 48 → s.labels = s.name.labels := by decide +kernel
  refine ⟨⟨_, (C83_fails_smallest_zone true).2.2.2.2⟩, fun s hs => hsig s (List.mem_filterMap.mpr ⟨_, hs, rfl⟩), ⟨⟨ascii "c."⟩,
    reached_c ⟨wRootSig, by decide +kernel⟩ (by decide +kernel), Or.inr ⟨by decide +kernel, ?_⟩⟩, ⟨by decide, by decide⟩, by decide +kernel, wildSig_next⟩
  show verifyRrsig _ _ _ _ = _
  decide +kernel

end Dnssec.Props
