import Verif.Props.Published
import Verif.Spec.Agreement

/-! # C98: proofs valid at the same time do not contradict each other -/

namespace Dnssec.Props

open Dnssec Spec

variable {dbg : Bool} {p : Platform} {W : Operators}

/-- **C98.** Whoever made them: two proofs that are valid at the time `t` and both verify records of type `ty` at the name `n` verify the same data for
them, if at that time operators stand by one such record set. Missing: that one for each owner name is enough, which is false (below). -/
theorem C98_same_data_partial {bs bs' : Bytes} {inp inp' : List RR} {fuel fuel' : Nat} {v v' : Verified}
    (hp : parseRRStream dbg bs = .ok inp) (hv : verifyRRStream dbg p fuel inp = some (.ok v))
    (hp' : parseRRStream dbg bs' = .ok inp') (hv' : verifyRRStream dbg p fuel' inp' = some (.ok v'))
    (hroot : ∀ k : DnsKey, k.name = rootName → Anchored p ianaAnchors k → W.owns rootName k) {t : Nat} {n : Name} {ty : UInt16}
    (hh : ∀ z : Name, (∃ pre, n.bytes = pre ++ z.bytes) → HonestOperator p W z) (hone : OneAnswer W t n ty)
    (ht : v.validFrom ≤ t ∧ t < v.expires) (ht' : v'.validFrom ≤ t ∧ t < v'.expires)
    (hn : ∃ r ∈ v.verifiedRrs, r.name = n ∧ r.ty = ty) (hn' : ∃ r ∈ v'.verifiedRrs, r.name = n ∧ r.ty = ty) (d : Bytes) :
    (∃ r ∈ v.verifiedRrs, r.name = n ∧ r.ty = ty ∧ rdata r = d) ↔ ∃ r ∈ v'.verifiedRrs, r.name = n ∧ r.ty = ty ∧ rdata r = d := by
  obtain ⟨r, hr, rfl, rfl⟩ := hn
  obtain ⟨r', hr', en, et⟩ := hn'
  obtain ⟨z, st, h1, _, _, h2, h3, h4, h5, h6, _⟩ := C69_only_signed_partial hp hv hroot hr hh
  obtain ⟨z', st', g1, _, _, g2, g3, g4, g5, g6, _⟩ := C69_only_signed_partial hp' hv' hroot hr' (en ▸ hh)
  rw [en] at g3
  rw [en, et] at g4
  rw [← h4 d, ← g4 d]
  exact hone z st z' st' h1 g1 h2 (g2.trans et) h3 g3 ⟨by omega, by omega⟩ ⟨by omega, by omega⟩ d

/-- **C98**, for the records themselves, if they are of those that have a faithful wire form. -/
theorem C98_same_records_partial {bs bs' : Bytes} {inp inp' : List RR} {fuel fuel' : Nat} {v v' : Verified}
    (hp : parseRRStream dbg bs = .ok inp) (hv : verifyRRStream dbg p fuel inp = some (.ok v))
    (hp' : parseRRStream dbg bs' = .ok inp') (hv' : verifyRRStream dbg p fuel' inp' = some (.ok v'))
    (hroot : ∀ k : DnsKey, k.name = rootName → Anchored p ianaAnchors k → W.owns rootName k) {t : Nat} {n : Name} {ty : UInt16}
    (hh : ∀ z : Name, (∃ pre, n.bytes = pre ++ z.bytes) → HonestOperator p W z) (hone : OneAnswer W t n ty)
    (ht : v.validFrom ≤ t ∧ t < v.expires) (ht' : v'.validFrom ≤ t ∧ t < v'.expires)
    (he : ∀ r, r ∈ v.verifiedRrs ∨ r ∈ v'.verifiedRrs → r.name = n → r.ty = ty → Encodable r)
    (hn : ∃ r ∈ v.verifiedRrs, r.name = n ∧ r.ty = ty) (hn' : ∃ r ∈ v'.verifiedRrs, r.name = n ∧ r.ty = ty)
    (r : RR) (hrn : r.name = n) (hrt : r.ty = ty) : r ∈ v.verifiedRrs ↔ r ∈ v'.verifiedRrs := by
  have inj : ∀ x y : RR, Encodable x → Encodable y → x.name = y.name → x.ty = y.ty → rdata x = rdata y → x = y := by
    intro x y hx hy h1 h2 h3
    have a := readRData_rdata false [] x hx
    have b := readRData_rdata false [] y hy
    rw [← h1, ← h2, ← h3, a] at b
    simpa using b
  have key := C98_same_data_partial hp hv hp' hv' hroot hh hone ht ht' hn hn' (rdata r)
  constructor
  · intro h
    obtain ⟨x, hx, h1, h2, h3⟩ := key.mp ⟨r, h, hrn, hrt, rfl⟩
    rwa [← inj x r (he x (Or.inr hx) h1 h2) (he r (Or.inl h) hrn hrt) (h1.trans hrn.symm) (h2.trans hrt.symm) h3]
  · intro h
    obtain ⟨x, hx, h1, h2, h3⟩ := key.mpr ⟨r, h, hrn, hrt, rfl⟩
    rwa [← inj x r (he x (Or.inl hx) h1 h2) (he r (Or.inr h) hrn hrt) (h1.trans hrn.symm) (h2.trans hrt.symm) h3]

/-- **C98**, if operators stand by one record set for each owner name and type, and by none of this type at wildcards above the name. -/
theorem C98_without_wildcards_partial {bs bs' : Bytes} {inp inp' : List RR} {fuel fuel' : Nat} {v v' : Verified}
    (hp : parseRRStream dbg bs = .ok inp) (hv : verifyRRStream dbg p fuel inp = some (.ok v))
    (hp' : parseRRStream dbg bs' = .ok inp') (hv' : verifyRRStream dbg p fuel' inp' = some (.ok v'))
    (hroot : ∀ k : DnsKey, k.name = rootName → Anchored p ianaAnchors k → W.owns rootName k) {t : Nat} {n : Name} {ty : UInt16}
    (hh : ∀ z : Name, (∃ pre, n.bytes = pre ++ z.bytes) → HonestOperator p W z) (hone : OneSetPerOwner W t)
    (hwild : ∀ z st, W.signed z st → InForce st t → st.ty = ty → OwnedBy n st.owner → HasLabels n st.owner)
    (ht : v.validFrom ≤ t ∧ t < v.expires) (ht' : v'.validFrom ≤ t ∧ t < v'.expires)
    (hn : ∃ r ∈ v.verifiedRrs, r.name = n ∧ r.ty = ty) (hn' : ∃ r ∈ v'.verifiedRrs, r.name = n ∧ r.ty = ty) (d : Bytes) :
    (∃ r ∈ v.verifiedRrs, r.name = n ∧ r.ty = ty ∧ rdata r = d) ↔ ∃ r ∈ v'.verifiedRrs, r.name = n ∧ r.ty = ty ∧ rdata r = d := by
  refine C98_same_data_partial hp hv hp' hv' hroot hh ?_ ht ht' hn hn' d
  intro z st z' st' h1 h1' h2 h2' h3 h3' h4 h4'
  exact hone z st z' st' h1 h1' (h2.trans h2'.symm) ((hwild z st h1 h4 h2 h3).unique (hwild z' st' h1' h4' h2' h3')) h4 h4'

/-- **C98**, for what `resolve_name` returns: where the answers from two proofs valid at the same time have records of one name and type, they have the
same data for it. -/
theorem C98_same_answers_partial {bs bs' : Bytes} {inp inp' : List RR} {fuel fuel' : Nat} {v v' : Verified}
    (hp : parseRRStream dbg bs = .ok inp) (hv : verifyRRStream dbg p fuel inp = some (.ok v))
    (hp' : parseRRStream dbg bs' = .ok inp') (hv' : verifyRRStream dbg p fuel' inp' = some (.ok v'))
    (hroot : ∀ k : DnsKey, k.name = rootName → Anchored p ianaAnchors k → W.owns rootName k) {t f f' : Nat} {n : Name} {l l' : List RR}
    (hr : resolveName v.verifiedRrs f n = some (.ok l)) (hr' : resolveName v'.verifiedRrs f' n = some (.ok l'))
    (hh : ∀ m, Leads W DnameTextually n m → ∀ z : Name, (∃ pre, m.bytes = pre ++ z.bytes) → HonestOperator p W z)
    (hone : ∀ m ty, Leads W DnameTextually n m → OneAnswer W t m ty)
    (ht : v.validFrom ≤ t ∧ t < v.expires) (ht' : v'.validFrom ≤ t ∧ t < v'.expires)
    {r r' : RR} (h : r ∈ l) (h' : r' ∈ l') (hn : r.name = r'.name) (hty : r.ty = r'.ty) (d : Bytes) :
    (∃ x ∈ l, x.ty = r.ty ∧ rdata x = d) ↔ ∃ x ∈ l', x.ty = r.ty ∧ rdata x = d := by
  obtain ⟨m, hm, a⟩ := C94_textually_partial hp hv hroot hr hh
  obtain ⟨m', _, a'⟩ := C94_textually_partial hp' hv' hroot hr' hh
  obtain ⟨e, z, st, h1, h2, h3, h4, h5, h6, _⟩ := a r h
  obtain ⟨e', z', st', g1, g2, g3, g4, g5, g6, _⟩ := a' r' h'
  obtain rfl : m = m' := by rw [← e, ← e', hn]
  rw [← hty] at g4
  rw [← h4 d, ← g4 d]
  exact hone m r.ty hm z st z' st' h1 g1 h2 (g2.trans hty.symm) h3 g3 ⟨by omega, by omega⟩ ⟨by omega, by omega⟩ d

/-- Another proof of the address of `a.com.`, made by the attacker, with their own address for `google.com.`. -/
def oAttackToo : List RR := oAttack ++ [wA "a.com.", oSig "a.com." 1 2 "com."]

/-- All hypotheses are met by the proof of `a.com.` and that of the attacker. -/
example : let p := oPlatform true oAddress
    (∃ bs v, parseRRStream false bs = .ok oStream ∧ verifyRRStream false p 3 oStream = some (.ok v) ∧
      wA "a.com." ∈ v.verifiedRrs ∧ v.validFrom ≤ 1500000000 ∧ 1500000000 < v.expires) ∧
    (∃ bs v, parseRRStream false bs = .ok oAttackToo ∧ verifyRRStream false p 4 oAttackToo = some (.ok v) ∧
      wA "a.com." ∈ v.verifiedRrs ∧ v.validFrom ≤ 1500000000 ∧ 1500000000 < v.expires) ∧
    (∀ k : DnsKey, k.name = rootName → Anchored p ianaAnchors k → (oWorld oAddress).owns rootName k) ∧
    (∀ z : Name, (∃ pre, (ascii "a.com.") = pre ++ z.bytes) → HonestOperator p (oWorld oAddress) z) ∧
    OneAnswer (oWorld oAddress) 1500000000 ⟨ascii "a.com."⟩ 1 ∧ OneSetPerOwner (oWorld oAddress) 1500000000 ∧ Encodable (wA "a.com.") := by
  have hone : ∀ a ∈ oSigned oAddress, ∀ b ∈ oSigned oAddress, a.2.ty = b.2.ty → a.2.ty = 1 ∨ a.2.owner = b.2.owner → a.2.rdatas = b.2.rdatas := by
    decide +kernel
  refine ⟨⟨(oStream.map (writeRR · 0)).flatten, ⟨[wA "a.com."], 1000000000, 2000000000, 3600⟩, by decide +kernel, by decide +kernel,
      by simp, by decide, by decide⟩,
    ⟨(oAttackToo.map (writeRR · 0)).flatten, ⟨[wA "a.com.", wA "google.com."], 1000000000, 2000000000, 3600⟩, by decide +kernel, by decide +kernel,
      by simp, by decide, by decide⟩, fun _ => oRoot, ?_, ?_, ?_,
    ⟨⟨[ascii "a", ascii "com"], by decide⟩, by simp [wA, rdataNames], by simp [wA], by decide, by simp [wA]⟩⟩
  · rintro z ⟨pre, h⟩
    apply oHonest (by decide)
    rintro _ rfl
    have := congrArg List.length h
    have e1 : (ascii "a.com.").length = 6 := by decide
    have e2 : (⟨ascii "oogle.com."⟩ : Name).bytes.length = 10 := by decide
    rw [List.length_append, e1, e2] at this
    omega
  · intro z st z' st' h h' a b _ _ _ _ d
    rw [hone _ h _ h' (a.trans b.symm) (Or.inl a)]
  · intro z st z' st' h h' a b _ _ d
    rw [hone _ h _ h' a (Or.inr b)]

/-- Those on answers too: both proofs answer for `a.com.`, and there are no aliases. -/
example : resolveName [wA "a.com."] 5 ⟨ascii "a.com."⟩ = some (.ok [wA "a.com."]) ∧
    resolveName [wA "a.com.", wA "google.com."] 5 ⟨ascii "a.com."⟩ = some (.ok [wA "a.com."]) ∧
    ∀ m, Leads (oWorld oAddress) DnameTextually ⟨ascii "a.com."⟩ m → m = ⟨ascii "a.com."⟩ := by
  have h : ∀ e ∈ oSigned oAddress, e.2.ty ≠ 5 ∧ e.2.ty ≠ 39 := by decide +kernel
  refine ⟨by decide +kernel, by decide +kernel, fun m hm => ?_⟩
  induction hm with
  | start => rfl
  | cname c z st _ h1 h2 => exact absurd h2 (h _ h1).1
  | dname d m m' z st _ h1 h2 => exact absurd h2 (h _ h1).2

/-- A proof of the address of `x.com.` itself. -/
def oOwnAddress : List RR := oPath ++ [.a ⟨⟨ascii "x.com."⟩, ⟨[5, 6, 7, 8], rfl⟩⟩, oSig "x.com." 1 2 "com."]

/-- **C98 is false** if operators stand by one record set for each owner name, and all are honest: of two proofs valid at the same time, one verifies the address of
the wildcard for `x.com.` and the other the one `x.com.` has. -/
theorem C98_fails_for_wildcards : ∃ bs bs' inp v v', let p := oPlatform false oExisting
    parseRRStream false bs = .ok inp ∧ verifyRRStream false p 3 inp = some (.ok v) ∧
    parseRRStream false bs' = .ok oOwnAddress ∧ verifyRRStream false p 3 oOwnAddress = some (.ok v') ∧
    (∀ k : DnsKey, k.name = rootName → Anchored p ianaAnchors k → (oWorld oExisting).owns rootName k) ∧
    (∀ z, HonestOperator p (oWorld oExisting) z) ∧ OneSetPerOwner (oWorld oExisting) 1500000000 ∧
    (v.validFrom ≤ 1500000000 ∧ 1500000000 < v.expires) ∧ (v'.validFrom ≤ 1500000000 ∧ 1500000000 < v'.expires) ∧
    v.verifiedRrs = [.a ⟨⟨ascii "x.com."⟩, ⟨[1, 2, 3, 4], rfl⟩⟩] ∧ v'.verifiedRrs = [.a ⟨⟨ascii "x.com."⟩, ⟨[5, 6, 7, 8], rfl⟩⟩] := by
  obtain ⟨h1, h2, h3⟩ := oExisting_facts
  have hone : ∀ a ∈ oSigned oExisting, ∀ b ∈ oSigned oExisting, a.2.ty = b.2.ty → a.2.owner = b.2.owner → a.2.rdatas = b.2.rdatas := by
    decide +kernel
  refine ⟨_, (oOwnAddress.map (writeRR · 0)).flatten, _, _, ⟨[.a ⟨⟨ascii "x.com."⟩, ⟨[5, 6, 7, 8], rfl⟩⟩], 1000000000, 2000000000, 3600⟩, h1, h2,
    by decide +kernel, by decide +kernel, fun _ => oRoot, fun _ => oHonest h3 (fun h => absurd h (by decide)), ?_, by decide, by decide, rfl, rfl⟩
  intro z st z' st' h h' a b _ _ d
  rw [hone _ h _ h' a b]

end Dnssec.Props
