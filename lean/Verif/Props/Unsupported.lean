import Verif.Proofs.Unsupported
import Verif.Props.Termination

/-! # C93: `UnsupportedAlgorithm` -/

namespace Dnssec.Props

open Dnssec Dnssec.Spec

variable {dbg : Bool} {p : Platform} {inp : List RR}

/-- **C93.** `UnsupportedAlgorithm` is only reported for proofs that show an authenticated delegation to a zone that uses something
unsupported: all its DS records have unknown digest types, or one is of an unsupported algorithm and for a key of the zone. Partial: that
nothing the zone uses is supported does not follow (`C93_fails_downgrade`). -/
theorem C93_wished_partial {fuel : Nat} (h : verifyRRStream dbg p fuel inp = some (.err .unsupported)) :
    ∃ z, WishesUnsupported (codeCheck p) p inp z := by
  obtain ⟨z, hr, hne, hu⟩ := verifyRRStream_unsupported h
  have hanch : ∀ {s : RRSig}, (codeCheck p).unsupported s (anchoredKeys p (anchors inp z) (keysAt inp z)) ((keysAt inp z).map .dnskey) →
      ∃ d ∈ anchors inp z, ¬ Supported d.alg ∧ ∃ k ∈ keysAt inp z, Vouches p d k := by
    intro s hs
    obtain ⟨_, ⟨k, hk, he⟩, _, ha⟩ := (verifyRrsig_unsupported_iff p _ _ _).mp hs
    obtain ⟨hk1, hk2⟩ := List.mem_filter.mp hk
    obtain ⟨d, hd, hv, _⟩ := of_decide_eq_true hk2
    refine ⟨d, hd, ?_, k, hk1, hv⟩
    rw [hv.1, he.alg]
    exact ha
  have hz : z ≠ rootName := by
    rintro rfl
    have hroot : anchors inp rootName = ianaAnchors := by simp [anchors]
    rw [hroot] at hne hu hanch
    rcases hu with hu | ⟨hs, hu⟩
    · obtain ⟨d, hd⟩ := List.exists_mem_of_ne_nil _ hne
      exact absurd ((by decide +kernel : ∀ d ∈ ianaAnchors, d.digestType = 2) d hd) (hu d hd).2.1
    · obtain ⟨s, hs⟩ := List.exists_mem_of_ne_nil _ hs
      obtain ⟨d, hd, hd', _⟩ := hanch (hu s hs)
      exact hd' (Or.inl ((by decide +kernel : ∀ d ∈ ianaAnchors, d.alg = 8) d hd))
  have han : anchors inp z = dsAt inp z := by simp [anchors, hz]
  have hauth : ∀ d ∈ dsAt inp z, Authenticated (codeCheck p) p inp (.ds d) := by
    intro d hd
    obtain ⟨hd1, hd2⟩ := mem_dsAt.mp hd
    generalize hzz : z = z' at *
    cases hr with
    | root => exact absurd rfl hz
    | delegated y ksig s h1 h2 h3 h4 => exact ⟨y, ksig, s, h1, h2, h3, hd1, hd2, h4.symm⟩
  refine ⟨z, hz, hr, ?_⟩
  rw [han] at hne hu hanch
  rcases hu with hu | ⟨hs, hu⟩
  · exact Or.inl ⟨hne, fun d hd => ⟨hauth d hd, hu d hd⟩⟩
  · obtain ⟨s, hs⟩ := List.exists_mem_of_ne_nil _ hs
    obtain ⟨d, hd, hd', hk⟩ := hanch (hu s hs)
    exact Or.inr ⟨d, hd, hauth d hd, hd', hk⟩

/-- Zone `c.` of algorithm 5 (RSA/SHA-1). -/
def onlySha1Stream : List RR :=
  wZone "." 0 ++ [.ds ⟨⟨ascii "c."⟩, 20323, 5, 2, [7]⟩, wSig "c." 43 1 ".", .dnskey ⟨⟨ascii "c."⟩, 257, 3, 5, [1, 3, 0x4A, 0x5A]⟩,
    .rrsig ⟨⟨ascii "c."⟩, 48, 5, 1, 3600, 2000000000, 1000000000, 20323, ⟨ascii "c."⟩, [1]⟩, wA "a.c.",
    .rrsig ⟨⟨ascii "a.c."⟩, 1, 5, 2, 3600, 2000000000, 1000000000, 20323, ⟨ascii "c."⟩, [1]⟩]

example : verifyRRStream false wPlatform 9 onlySha1Stream = some (.err .unsupported) := by decide +kernel

/-- **C93.** If everything in the reached zones is in order, except that at least one zone has nothing in the proof by which its keys could be
validated for lack of supported algorithms, the result is `UnsupportedAlgorithm`. Partial: signatures of unsupported algorithms
over other records are not reported (`C93_fails_for_data`). -/
theorem C93_reported_partial
    (hc : ∀ z, Reached (codeCheck p) p inp z → ZoneInOrder (codeCheck p) p inp z ∨ OnlyUnsupported (codeCheck p) p inp z)
    (hu : ∃ z, Reached (codeCheck p) p inp z ∧ OnlyUnsupported (codeCheck p) p inp z)
    (h2 : RootDelegates (codeCheck p) inp) (h3 : ¬ SelfDelegation (codeCheck p) p inp) :
    ∃ fuel, verifyRRStream dbg p fuel inp = some (.err .unsupported) :=
  verifyRRStream_reports hc hu h2 h3

/-- **C93**, with good signatures and unsupported ones as in RFC 4034. -/
theorem C93_wished_rfc_partial (hn : ProperInput inp) {fuel : Nat} (h : verifyRRStream dbg p fuel inp = some (.err .unsupported)) :
    ∃ z, WishesUnsupported (rfcCheck p) p inp z :=
  (C93_wished_partial h).imp fun z => ((agrees_rfc p inp hn).wishesUnsupported z).mp

/-- **C93**, with good signatures and unsupported ones as in RFC 4034. -/
theorem C93_reported_rfc_partial (hn : ProperInput inp)
    (hc : ∀ z, Reached (rfcCheck p) p inp z → ZoneInOrder (rfcCheck p) p inp z ∨ OnlyUnsupported (rfcCheck p) p inp z)
    (hu : ∃ z, Reached (rfcCheck p) p inp z ∧ OnlyUnsupported (rfcCheck p) p inp z)
    (h2 : RootDelegates (rfcCheck p) inp) (h3 : ¬ SelfDelegation (rfcCheck p) p inp) :
    ∃ fuel, verifyRRStream dbg p fuel inp = some (.err .unsupported) := by
  have hA := agrees_rfc p inp hn
  refine C93_reported_partial (fun z hz => ?_) ?_ (hA.rootDelegates.mpr h2) (fun h => h3 (hA.selfDelegation.mp h))
  · exact (hc z ((hA.reached z).mp hz)).imp (hA.zoneInOrder z).mpr (hA.onlyUnsupported z).mpr
  · exact hu.imp fun z hz => ⟨(hA.reached z).mpr hz.1, (hA.onlyUnsupported z).mpr hz.2⟩

/-- The stream of the examples is well formed, so these apply to it. -/
theorem onlySha1Stream_proper : ProperInput onlySha1Stream := by
  have h0 : HasLabels ⟨ascii "."⟩ [] := by decide
  have h1 : HasLabels ⟨ascii "c."⟩ [ascii "c"] := by decide
  have h2 : HasLabels ⟨ascii "a.c."⟩ [ascii "a", ascii "c"] := by decide
  refine ⟨?_, ?_, ?_, ?_⟩
  · intro r hr
    simp only [onlySha1Stream, wZone, List.cons_append, List.nil_append, List.mem_cons, List.not_mem_nil, or_false] at hr
    rcases hr with rfl | rfl | rfl | rfl | rfl | rfl | rfl | rfl
    · exact ⟨_, h0⟩
    · exact ⟨_, h0⟩
    · exact ⟨_, h1⟩
    · exact ⟨_, h1⟩
    · exact ⟨_, h1⟩
    · exact ⟨_, h1⟩
    · exact ⟨_, h2⟩
    · exact ⟨_, h2⟩
  · intro s hs
    simp only [onlySha1Stream, wZone, wKey, wSig, wSigWith, wA, List.cons_append, List.nil_append, List.mem_cons,
      List.not_mem_nil, or_false, RR.rrsig.injEq, reduceCtorEq, false_or] at hs
    rcases hs with rfl | rfl | rfl | rfl
    · exact ⟨_, h0⟩
    · exact ⟨_, h0⟩
    · exact ⟨_, h1⟩
    · exact ⟨_, h1⟩
  · intro t ht
    simp [onlySha1Stream, wZone, wKey, wSig, wSigWith, wA] at ht
  · have h : ∀ r ∈ onlySha1Stream, r.ty ≠ 46 → r.ty ∈ [1, 16, 28, 43, 48, 52] := by decide +kernel
    have h' : ∀ s ∈ onlySha1Stream.filterMap (fun | .rrsig s => some s | _ => none), s.ty ≠ 46 := by decide +kernel
    intro s hs r hr r' hr' h1 h2 h3 h4 h5
    by_cases h46 : r.ty = 46
    · exact absurd (h2 ▸ h46) (h' s (List.mem_filterMap.mpr ⟨_, hs, rfl⟩))
    · exact .inl (h r hr h46)

example : ∃ z, WishesUnsupported (rfcCheck wPlatform) wPlatform onlySha1Stream z :=
  C93_wished_rfc_partial (dbg := false) (fuel := 9) onlySha1Stream_proper (by decide +kernel)

/-- Everything in the zones checks out by computation, or fails for lack of supported algorithms. -/
theorem reported_of_check {zs : List Name} (hc : closedUnder inp zs = true)
    (h : zs.all (fun z => zoneInOrder p inp z ||
      decide (verifyDnskeys p (keySigs inp z) (anchors inp z) (keysAt inp z) = .err .unsupported)) = true) :
    ∀ z, Reached (codeCheck p) p inp z → ZoneInOrder (codeCheck p) p inp z ∨ OnlyUnsupported (codeCheck p) p inp z := by
  intro z hz
  have h := List.all_eq_true.mp h z (reached_mem hc hz)
  rw [Bool.or_eq_true] at h
  rcases h with h | h
  · refine Or.inl ?_
    unfold zoneInOrder at h
    rw [Bool.and_eq_true] at h
    obtain ⟨h1, h2⟩ := h
    constructor
    · cases hv : verifyDnskeys p (keySigs inp z) (anchors inp z) (keysAt inp z) with
      | ok s => exact ⟨s, (verifyDnskeys_ok_iff _ _ _ _ _).mp hv⟩
      | err e => rw [hv] at h1; simp at h1
      | panic => rw [hv] at h1; simp at h1
    · intro s hs
      have h3 := List.all_eq_true.mp h2 s hs
      simp only [Bool.and_eq_true, Bool.or_eq_true, decide_eq_true_eq] at h3
      obtain ⟨⟨⟨a, b⟩, c⟩, d⟩ := h3
      refine ⟨(endsWith_iff _ _).mp a, Or.inr ⟨⟨hs, b⟩, c, fun _ hx => ?_⟩⟩
      rcases d with (d | d) | d
      · exact absurd d hx.1
      · exact absurd d hx.2
      · exact d
  · exact Or.inr ((zone_unsupported_iff z).mp (of_decide_eq_true h))

/-- The conditions of `C93_reported_partial` are met by the zone of algorithm 5. -/
example : let inp := onlySha1Stream
    (∀ z, Reached (codeCheck wPlatform) wPlatform inp z → ZoneInOrder (codeCheck wPlatform) wPlatform inp z ∨
      OnlyUnsupported (codeCheck wPlatform) wPlatform inp z) ∧
    (∃ z, Reached (codeCheck wPlatform) wPlatform inp z ∧ OnlyUnsupported (codeCheck wPlatform) wPlatform inp z) ∧
    RootDelegates (codeCheck wPlatform) inp ∧ ¬ SelfDelegation (codeCheck wPlatform) wPlatform inp := by
  refine ⟨reported_of_check (zs := [rootName, ⟨ascii "c."⟩]) (by decide +kernel) (by decide +kernel),
    verifyRRStream_unsupported (dbg := false) (fuel := 9) (by decide +kernel),
    ⟨⟨⟨ascii "c."⟩, 43, 8, 1, 3600, 2000000000, 1000000000, 20326, ⟨ascii "."⟩, [1]⟩, ⟨by decide +kernel, ?_⟩, rfl⟩, ?_⟩
  · show verifyRrsig _ _ _ _ = _
    decide +kernel
  · rintro ⟨z, _, s, ⟨hs, _⟩, ht, hn⟩
    obtain ⟨a, b, _⟩ := mem_sigsBy.mp hs
    have : ∀ s ∈ onlySha1Stream.filterMap (fun | .rrsig s => some s | _ => none), s.ty = 43 → s.name ≠ s.keyName := by decide +kernel
    exact this s (List.mem_filterMap.mpr ⟨_, a, rfl⟩) ht (hn.trans b.symm)

/-- **C93 is false** in its strong form (RFC 4035 5.2): any accepted proof through a zone that uses an unsupported algorithm among supported
ones can be turned, by anyone on the way and without any key, into one for which `UnsupportedAlgorithm` is reported: they replace the
signatures over the key set by a made up one. A user who then uses the data anyway, as documented, uses what anyone sent. -/
theorem C93_fails_downgrade {fuel : Nat} {v : Verified} (h : verifyRRStream dbg p fuel inp = some (.ok v))
    (hl : ∀ s, RR.rrsig s ∈ inp → s.labels ≠ 255 ∧ s.ty ≠ 46) {z : Name} (hz : Reached (codeCheck p) p inp z) {d : DS} {k : DnsKey}
    (hd : d ∈ anchors inp z) (hk : k ∈ keysAt inp z) (hv : Vouches p d k) (h1 : d.digestType ≠ 1) (hp : k.protocol = 3)
    (hf : k.flags.toNat.testBit 8 = true) (ha : ¬ Supported d.alg) :
    ∃ fuel, verifyRRStream dbg p fuel (downgraded inp z d) = some (.err .unsupported) := by
  obtain ⟨c, r, s, _⟩ := verifyRRStream_ok_needs h
  exact verifyRRStream_downgraded ((inOrder_iff_clean (dbg := dbg) (fun s hs => (hl s hs).1)).mpr c) r s (fun s hs => (hl s hs).2) hz hd hk hv h1
    hp hf ha

/-- Zone `c.` with keys of algorithms 5 and 8, both vouched for. -/
def bothAlgorithms : List RR :=
  wZone "." 0 ++ [.ds ⟨⟨ascii "c."⟩, 20323, 5, 2, [7]⟩, wDs "c.", wSig "c." 43 1 ".",
    .dnskey ⟨⟨ascii "c."⟩, 257, 3, 5, [1, 3, 0x4A, 0x5A]⟩, wKey "c.", wSig "c." 48 1 "c.", wA "a.c.", wSig "a.c." 1 2 "c."]

/-- It meets the conditions: the proof is accepted, not everything in it is unsupported, and yet it can be downgraded. -/
example : let inp := bothAlgorithms
    verifyRRStream false wPlatform 9 inp = some (.ok ⟨[wA "a.c."], 1000000000, 2000000000, 3600⟩) ∧
    ¬ NothingSupported inp ⟨ascii "c."⟩ ∧
    (∀ s ∈ inp.filterMap (fun | .rrsig s => some s | _ => none), s.labels ≠ 255 ∧ s.ty ≠ 46) ∧
    Reached (codeCheck wPlatform) wPlatform inp ⟨ascii "c."⟩ ∧
    ⟨⟨ascii "c."⟩, 20323, 5, 2, [7]⟩ ∈ anchors inp ⟨ascii "c."⟩ ∧
    ⟨⟨ascii "c."⟩, 257, 3, 5, [1, 3, 0x4A, 0x5A]⟩ ∈ keysAt inp ⟨ascii "c."⟩ ∧
    Vouches wPlatform ⟨⟨ascii "c."⟩, 20323, 5, 2, [7]⟩ ⟨⟨ascii "c."⟩, 257, 3, 5, [1, 3, 0x4A, 0x5A]⟩ ∧ ¬ Supported 5 ∧
    verifyRRStream false wPlatform 9 (downgraded inp ⟨ascii "c."⟩ ⟨⟨ascii "c."⟩, 20323, 5, 2, [7]⟩) = some (.err .unsupported) := by
  refine ⟨by decide +kernel, ?_, by decide +kernel, ?_, by decide +kernel, by decide +kernel, by decide +kernel, by unfold Supported; decide,
    by decide +kernel⟩
  · intro h
    rcases h ⟨⟨ascii "c."⟩, 20326, 8, 2, [7]⟩ (by decide +kernel) with h | h
    · exact h (Or.inl rfl)
    · exact h.2.1 rfl
  · refine Reached.delegated rootName ⟨⟨ascii "."⟩, 48, 8, 0, 3600, 2000000000, 1000000000, 20326, ⟨ascii "."⟩, [1]⟩
      ⟨⟨ascii "c."⟩, 43, 8, 1, 3600, 2000000000, 1000000000, 20326, ⟨ascii "."⟩, [1]⟩ .root ?_ ⟨by decide +kernel, ?_⟩ rfl
    · refine (verifyDnskeys_ok_iff _ _ _ _ _).mp ?_
      decide +kernel
    · show verifyRrsig _ _ _ _ = _
      decide +kernel

/-- Zone `c.` with a key signing key of algorithm 8 and a zone signing key of algorithm 5, and a record signed with that only. -/
def dataUnsupported : List RR :=
  wZone "." 0 ++ [wDs "c.", wSig "c." 43 1 ".",
    .dnskey ⟨⟨ascii "c."⟩, 256, 3, 5, [1, 3, 0x4A, 0x5A]⟩, wKey "c.", wSig "c." 48 1 "c.", wA "a.c.",
    .rrsig ⟨⟨ascii "a.c."⟩, 1, 5, 2, 3600, 2000000000, 1000000000, 20322, ⟨ascii "c."⟩, [1]⟩]

/-- **C93 is false** the other way round, too: a record that an authenticated zone signs with an unsupported algorithm only, by an authenticated
key, is not reported as `UnsupportedAlgorithm` but as `Invalid`, or, if something else verifies, silently left out. -/
theorem C93_fails_for_data :
    verifyRRStream dbg wPlatform 9 dataUnsupported = some (.err .invalid) ∧
    verifyRRStream dbg wPlatform 9 (dataUnsupported ++ [wA "b.c.", wSig "b.c." 1 2 "c."]) =
      some (.ok ⟨[wA "b.c."], 1000000000, 2000000000, 3600⟩) ∧
    ∃ (s : RRSig) (k : DnsKey), RR.rrsig s ∈ dataUnsupported ∧ s.name = ⟨ascii "a.c."⟩ ∧ s.ty = 1 ∧ s.keyName = ⟨ascii "c."⟩ ∧
      k ∈ keysAt dataUnsupported ⟨ascii "c."⟩ ∧ Eligible s k ∧ ¬ Supported s.alg ∧
      ∃ ksig, Reached (codeCheck wPlatform) wPlatform dataUnsupported ⟨ascii "c."⟩ ∧
        ZoneKeysOk (codeCheck wPlatform) wPlatform dataUnsupported ⟨ascii "c."⟩ ksig := by
  refine ⟨by cases dbg <;> decide +kernel, by cases dbg <;> decide +kernel,
    ⟨⟨ascii "a.c."⟩, 1, 5, 2, 3600, 2000000000, 1000000000, 20322, ⟨ascii "c."⟩, [1]⟩, ⟨⟨ascii "c."⟩, 256, 3, 5, [1, 3, 0x4A, 0x5A]⟩,
    by decide +kernel, rfl, rfl, rfl, by decide +kernel, ⟨by decide +kernel, rfl, by decide, rfl⟩, by unfold Supported; decide,
    ⟨⟨ascii "c."⟩, 48, 8, 1, 3600, 2000000000, 1000000000, 20326, ⟨ascii "c."⟩, [1]⟩, ?_, ?_⟩
  · refine Reached.delegated rootName ⟨⟨ascii "."⟩, 48, 8, 0, 3600, 2000000000, 1000000000, 20326, ⟨ascii "."⟩, [1]⟩
      ⟨⟨ascii "c."⟩, 43, 8, 1, 3600, 2000000000, 1000000000, 20326, ⟨ascii "."⟩, [1]⟩ .root ?_ ⟨by decide +kernel, ?_⟩ rfl
    · refine (verifyDnskeys_ok_iff _ _ _ _ _).mp ?_
      decide +kernel
    · show verifyRrsig _ _ _ _ = _
      decide +kernel
  · refine (verifyDnskeys_ok_iff _ _ _ _ _).mp ?_
    decide +kernel

end Dnssec.Props
