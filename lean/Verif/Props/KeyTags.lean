import Verif.Spec.KeyTags
import Verif.Props.Rollover
import Verif.Props.Sig

/-! # C105: keys with the same key tag -/

namespace Dnssec.Props

open Dnssec Dnssec.Spec

variable {dbg : Bool} {p : Platform} {fuel : Nat} {inp : List RR} {v : Verified} {z : Name}

private theorem firstEligible_of_one {sig : RRSig} : ∀ {keys : List DnsKey} {k : DnsKey}, k ∈ keys → Eligible sig k → OneMatch sig keys →
    FirstEligible sig keys k
  | x :: xs, k, hk, he, hu => by
    by_cases hx : Eligible sig x
    · have := hu k hk x (List.mem_cons_self ..) he hx
      subst this
      exact ⟨[], xs, rfl, he, by simp⟩
    · have hk' : k ∈ xs := by
        rcases List.mem_cons.mp hk with rfl | h
        · exact absurd he hx
        · exact h
      obtain ⟨a, b, c, d, e⟩ := firstEligible_of_one hk' he
        (fun y hy y' hy' => hu y (List.mem_cons_of_mem _ hy) y' (List.mem_cons_of_mem _ hy'))
      refine ⟨x :: a, b, by rw [c]; rfl, d, ?_⟩
      intro y hy
      rcases List.mem_cons.mp hy with rfl | hy
      · exact hx
      · exact e y hy

/-- **C105, one direction.** An accepted signature is good under some matching key. -/
theorem C105_sound (p : Platform) (sig : RRSig) (keys : List DnsKey) (records : List RR)
    (hk : ∃ ls, HasLabels sig.keyName ls) (hr : Proper records) (h : verifyRrsig p sig keys records = .ok ()) :
    GoodUnderSome p sig keys records := by
  obtain ⟨h1, k, msg, ⟨pre, post, e, he, _⟩, h2, h3⟩ := (C20_accept_iff_partial p sig keys records hk hr).mp h
  exact ⟨h1, k, by rw [e]; simp, he, msg, h2, h3⟩

/-- **C105 (partial).** If at most one key matches, a signature is accepted exactly if it is good under some key. Missing: several
matching keys, for which it is false. -/
theorem C105_accept_iff_partial (p : Platform) (sig : RRSig) (keys : List DnsKey) (records : List RR)
    (hk : ∃ ls, HasLabels sig.keyName ls) (hr : Proper records) (hu : OneMatch sig keys) :
    verifyRrsig p sig keys records = .ok () ↔ GoodUnderSome p sig keys records := by
  refine ⟨C105_sound p sig keys records hk hr, ?_⟩
  rintro ⟨h1, k, hm, he, msg, h2, h3⟩
  exact (C20_accept_iff_partial p sig keys records hk hr).mpr ⟨h1, k, msg, firstEligible_of_one hm he hu, h2, h3⟩

private theorem first_unique {sig : RRSig} : ∀ {keys : List DnsKey} {k k' : DnsKey}, FirstEligible sig keys k → FirstEligible sig keys k' → k = k'
  | [], _, _, ⟨pre, _, e, _⟩, _ => by simp at e
  | x :: xs, k, k', ⟨pre, post, e, he, hn⟩, ⟨pre', post', e', he', hn'⟩ => by
    cases pre with
    | nil =>
      cases pre' with
      | nil =>
        simp only [List.nil_append, List.cons.injEq] at e e'
        exact e.1.symm.trans e'.1
      | cons y ys =>
        simp only [List.nil_append, List.cons_append, List.cons.injEq] at e e'
        exact absurd (e'.1 ▸ e.1 ▸ he) (hn' y (List.mem_cons_self ..))
    | cons y ys =>
      simp only [List.cons_append, List.cons.injEq] at e
      cases pre' with
      | nil =>
        simp only [List.nil_append, List.cons.injEq] at e'
        exact absurd (e.1 ▸ e'.1 ▸ he') (hn y (List.mem_cons_self ..))
      | cons y' ys' =>
        simp only [List.cons_append, List.cons.injEq] at e'
        exact first_unique ⟨ys, post, e.2, he, fun w hw => hn w (List.mem_cons_of_mem _ hw)⟩
          ⟨ys', post', e'.2, he', fun w hw => hn' w (List.mem_cons_of_mem _ hw)⟩

/-- **C105, exact.** Of several matching keys only the first is tried, for every set of records: what the others would say makes no difference. -/
theorem C105_first_only_iff (p : Platform) (sig : RRSig) (keys : List DnsKey) (records : List RR) {k : DnsKey} (h : FirstEligible sig keys k) :
    verifyRrsig p sig keys records = .ok () ↔ verifyRrsig p sig [k] records = .ok () := by
  have hone : FirstEligible sig [k] k := by
    obtain ⟨_, _, _, he, _⟩ := h
    exact ⟨[], [], rfl, he, by simp⟩
  rw [verifyRrsig_ok_iff, verifyRrsig_ok_iff]
  constructor
  · rintro ⟨h1, k', msg, hf, h2⟩
    cases first_unique h hf
    exact ⟨h1, k, msg, hone, h2⟩
  · rintro ⟨h1, k', msg, hf, h2⟩
    cases first_unique hone hf
    exact ⟨h1, k, msg, h, h2⟩

/-- **C105 is false** in every zone with two keys that match the same signature: if anything is signed with the second of them, every proof
that gets to this zone and contains this signature is rejected, although the signature is good and made with a key of the zone. -/
theorem C105_fails_in_every_zone (hz : Reached (codeCheck p) p inp z) {k k' : DnsKey} (_hk' : k' ∈ keysAt inp z) {s : RRSig}
    (hs : s ∈ sigsBy inp z) (hgood : MadeBy (codeCheck p) s k' (rrset inp s.name s.ty)) (hfirst : FirstEligible s (keysAt inp z) k)
    (hnot : ¬ MadeBy (codeCheck p) s k (rrset inp s.name s.ty)) : verifyRRStream dbg p fuel inp ≠ some (.ok v) := by
  obtain ⟨a, b, c⟩ := mem_sigsBy.mp hs
  refine C26_bad_signature z hz s a b c ?_ ?_
  · exact fun hg => hnot ((C105_first_only_iff p s _ _ hfirst).mp hg)
  · intro hg
    obtain ⟨_, _, _, hsup⟩ := (verifyRrsig_unsupported_iff p s _ _).mp hg
    have := C20_unsupported_never_ok p s [k'] (rrset inp s.name s.ty) hsup
    exact this hgood

/-- **C105, key sets.** For the signatures over the key set itself only keys with DS records are tried, so other keys of the same tag do not
matter: it is enough that the first signature over it is made with a key that has a DS record, and no other key with a DS record matches. -/
theorem C105_key_set_partial {s : RRSig} {rest : List RRSig} {k : DnsKey} (hl : keySigs inp z = s :: rest) (hk : k ∈ keysAt inp z)
    (ha : Anchored p (anchors inp z) k) (hm : MadeBy (codeCheck p) s k ((keysAt inp z).map .dnskey))
    (hu : ∀ k' ∈ keysAt inp z, Anchored p (anchors inp z) k' → Eligible s k' → k' = k) : ZoneKeysOk (codeCheck p) p inp z s := by
  obtain ⟨h1, k0, msg, ⟨pre, post, e, he, _⟩, h2⟩ := (verifyRrsig_ok_iff p s [k] _).mp hm
  have hkk : k0 = k := by
    cases pre with
    | nil => simp at e; exact e.1.symm
    | cons x xs => simp at e
  subst hkk
  refine ⟨?_, [], rest, hl, by simp, (verifyRrsig_ok_iff p s _ _).mpr ⟨h1, k0, msg, ?_, h2⟩⟩
  · obtain ⟨d, hd, hd2, _⟩ := ha
    refine ⟨d, hd, ?_⟩
    rcases hd2.2.2 with e | e
    · exact Or.inl e.1
    · exact Or.inr (Or.inl e.1)
  · refine firstEligible_of_one (List.mem_filter.mpr ⟨hk, by simpa using ha⟩) he ?_
    intro x hx y hy ex ey
    obtain ⟨hx1, hx2⟩ := List.mem_filter.mp hx
    obtain ⟨hy1, hy2⟩ := List.mem_filter.mp hy
    rw [hu x hx1 (by simpa using hx2) ex, hu y hy1 (by simpa using hy2) ey]

/-- Keys with the same tag are not hard to come by (a fact about RFC 4034 appendix B): exchanging two pairs of octets of the public
key does not change what signatures the key matches. -/
theorem C105_collisions_exist (k k' : DnsKey) (a b c d : UInt8) (rest : Bytes) (hne : (a, b) ≠ (c, d)) (hk : k.pubkey = a :: b :: c :: d :: rest)
    (hk' : k' = { k with pubkey := c :: d :: a :: b :: rest }) : k ≠ k' ∧ ∀ s, Eligible s k ↔ Eligible s k' := by
  have htag : keyTag (rdata (.dnskey k)) = keyTag (rdata (.dnskey k')) := by
    have : keyTagSum (rdata (.dnskey k)) = keyTagSum (rdata (.dnskey k')) := by
      rw [rdata_keyTagSum, rdata_keyTagSum, hk', hk]
      simp only [keyTagSum]
      omega
    simp only [keyTag, this]
  constructor
  · intro h
    have : k.pubkey = k'.pubkey := by rw [← h]
    rw [hk, hk'] at this
    simp only [List.cons.injEq] at this
    exact hne (by rw [this.1, this.2.1])
  · intro s
    constructor
    · rintro ⟨h1, h2, h3, h4⟩
      exact ⟨h1.trans htag, by rw [hk']; exact h2, by rw [hk']; exact h3, by rw [hk']; exact h4⟩
    · rintro ⟨h1, h2, h3, h4⟩
      rw [hk'] at h2 h3 h4
      exact ⟨h1.trans htag.symm, h2, h3, h4⟩

/-! ## Examples -/

/-- Two zone signing keys of `c.` with the same tag. -/
def tZ : DnsKey := ⟨⟨ascii "c."⟩, 256, 3, 8, [1, 3, 0x4A, 0x5A, 0, 7]⟩
def tZ' : DnsKey := ⟨⟨ascii "c."⟩, 256, 3, 8, [1, 3, 0, 7, 0x4A, 0x5A]⟩

/-- **C105 is false**: with both keys in the key set, a proof with a signature by one of them is accepted or rejected depending on which comes
first. -/
theorem C105_fails_for_order (dbg : Bool) :
    verifyRRStream dbg modulusPlatform 5 (rStream [rK, tZ, tZ'] [rK] [tZ]) = some (.ok ⟨[wA "a.c."], 1000000000, 2000000000, 3600⟩) ∧
    verifyRRStream dbg modulusPlatform 5 (rStream [rK, tZ', tZ] [rK] [tZ]) = some (.err .invalid) ∧
    (rStream [rK, tZ, tZ'] [rK] [tZ]).Perm (rStream [rK, tZ', tZ] [rK] [tZ]) := by
  refine ⟨by cases dbg <;> decide +kernel, by cases dbg <;> decide +kernel, ?_⟩
  unfold rStream
  refine List.Perm.append_right _ (List.Perm.append_right _ (List.Perm.append_right _ (List.Perm.append_left _ ?_)))
  exact (List.Perm.swap _ _ _).cons _

/-- The conditions of `C105_fails_in_every_zone` and `C105_key_set_partial` hold in the second of these proofs. -/
example : Reached (codeCheck modulusPlatform) modulusPlatform (rStream [rK, tZ', tZ] [rK] [tZ]) ⟨ascii "c."⟩ ∧
    tZ ∈ keysAt (rStream [rK, tZ', tZ] [rK] [tZ]) ⟨ascii "c."⟩ ∧
    (∃ s ∈ sigsBy (rStream [rK, tZ', tZ] [rK] [tZ]) ⟨ascii "c."⟩,
      verifyRrsig modulusPlatform s [tZ] (rrset (rStream [rK, tZ', tZ] [rK] [tZ]) s.name s.ty) = .ok () ∧
      ¬ verifyRrsig modulusPlatform s [tZ'] (rrset (rStream [rK, tZ', tZ] [rK] [tZ]) s.name s.ty) = .ok () ∧
      FirstEligible s (keysAt (rStream [rK, tZ', tZ] [rK] [tZ]) ⟨ascii "c."⟩) tZ') ∧
    ∃ s, keySigs (rStream [rK, tZ', tZ] [rK] [tZ]) ⟨ascii "c."⟩ = [s] ∧
      Anchored modulusPlatform (anchors (rStream [rK, tZ', tZ] [rK] [tZ]) ⟨ascii "c."⟩) rK ∧
      verifyRrsig modulusPlatform s [rK] ((keysAt (rStream [rK, tZ', tZ] [rK] [tZ]) ⟨ascii "c."⟩).map .dnskey) = .ok () ∧
      ∀ k ∈ keysAt (rStream [rK, tZ', tZ] [rK] [tZ]) ⟨ascii "c."⟩, Eligible s k → k = rK := by
  have hel : ∀ s k, Eligible s k ↔ keyEligible s k = true := fun s k => (keyEligible_iff s k).symm
  refine ⟨?_, by decide +kernel, ?_, ?_⟩
  · have h : ∃ ksig, verifyDnskeys modulusPlatform (keySigs (rStream [rK, tZ', tZ] [rK] [tZ]) rootName)
        (anchors (rStream [rK, tZ', tZ] [rK] [tZ]) rootName) (keysAt (rStream [rK, tZ', tZ] [rK] [tZ]) rootName) = .ok ksig :=
      ⟨⟨⟨ascii "."⟩, 48, 8, 0, 3600, 2000000000, 1000000000, 20326, ⟨ascii "."⟩, [1]⟩, by decide +kernel⟩
    obtain ⟨ksig, hk⟩ := h
    refine .delegated rootName ksig ⟨⟨ascii "c."⟩, 43, 8, 1, 3600, 2000000000, 1000000000, 20326, ⟨ascii "."⟩, [1]⟩ .root
      ((verifyDnskeys_ok_iff _ _ _ _ _).mp hk) ⟨by decide +kernel, ?_⟩ rfl
    simp only [codeCheck]
    decide +kernel
  · refine ⟨⟨⟨ascii "a.c."⟩, 1, 8, 2, 3600, 2000000000, 1000000000, tZ.computeKeyTag, ⟨ascii "c."⟩, [1]⟩, by decide +kernel, by decide +kernel,
      by decide +kernel, [rK], [tZ], by decide +kernel, (hel _ _).mpr (by decide +kernel), ?_⟩
    intro k hk
    rw [hel]
    revert k
    decide +kernel
  · refine ⟨⟨⟨ascii "c."⟩, 48, 8, 1, 3600, 2000000000, 1000000000, rK.computeKeyTag, ⟨ascii "c."⟩, [1]⟩, by decide +kernel, by decide +kernel,
      by decide +kernel, ?_⟩
    intro k hk
    rw [hel]
    revert k
    decide +kernel

/-- Of the keys `rK` and `tZ` only one matches the signature, as `C105_accept_iff_partial` asks, and it is accepted. -/
example : OneMatch ⟨⟨ascii "a.c."⟩, 1, 8, 2, 3600, 2000000000, 1000000000, tZ.computeKeyTag, ⟨ascii "c."⟩, [1]⟩ [rK, tZ] ∧
    verifyRrsig modulusPlatform ⟨⟨ascii "a.c."⟩, 1, 8, 2, 3600, 2000000000, 1000000000, tZ.computeKeyTag, ⟨ascii "c."⟩, [1]⟩ [rK, tZ]
      [wA "a.c."] = .ok () := by
  refine ⟨?_, by decide +kernel⟩
  intro k hk k' hk'
  rw [← keyEligible_iff, ← keyEligible_iff]
  revert k k'
  decide +kernel

end Dnssec.Props
