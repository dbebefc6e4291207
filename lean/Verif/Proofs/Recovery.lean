import Verif.Spec.Recovery
import Verif.Proofs.Operators

/-! # After stolen keys are no longer vouched for -/

namespace Dnssec

open Spec

variable {dbg : Bool} {p : Platform} {W : Operators} {T : Nat} {bs : Bytes} {inp : List RR}

theorem keys_owned_since (hparse : parseRRStream dbg bs = .ok inp) {z : Name} (hz : HonestSince p W T z)
    (ha : ∀ k : DnsKey, k.name = z → Anchored p (anchors inp z) k → W.owns z k)
    (hT : ∀ s, Used (codeCheck p) p inp s → T < instant s.expiration) (hr : Reached (codeCheck p) p inp z)
    {ksig : RRSig} (hk : ZoneKeysOk (codeCheck p) p inp z ksig) : ∀ k ∈ keysAt inp z, W.owns z k := by
  have huse := hT ksig ⟨z, hr, .inl hk⟩
  obtain ⟨_, before, after, hsigs, _, hgood⟩ := hk
  have hmem : ksig ∈ keySigs inp z := by rw [hsigs]; simp
  obtain ⟨s1, s2, s3⟩ := mem_keySigs.mp hmem
  intro k hkz
  have hin : ∀ r ∈ (keysAt inp z).map RR.dnskey, r ∈ inp ∧ r.name = z := by
    intro r hr
    obtain ⟨k', hk', rfl⟩ := List.mem_map.mp hr
    exact mem_keysAt.mp hk'
  obtain ⟨st, t1, t2, _, t4, _, _, t7, t9, t8⟩ := good_statement_of hz.unforgeable hz.fits hgood (by
      intro k' hk'
      obtain ⟨a, b⟩ := List.mem_filter.mp hk'
      exact ha k' (mem_keysAt.mp a).2 (by simpa using b)) (by
      intro h0
      have : RR.dnskey k ∈ (keysAt inp z).map RR.dnskey := List.mem_map_of_mem hkz
      rw [h0] at this; simp at this) (fun r hr => stream_sized hparse r (hin r hr).1) (parsed_signers hparse s1)
  obtain ⟨w1, w2⟩ := hz.keySets st t1 (t2.trans s3)
  have hm : RR.dnskey k ∈ (keysAt inp z).map RR.dnskey := List.mem_map_of_mem hkz
  have hl := owned_labels (signedOwner_owned (stream_sized hparse _ (hin _ hm).1).1 t9 (t8 _ hm)) w1
  have hkn := (mem_keysAt.mp hkz).2
  rcases w2 (hkn ▸ hl) k hkn ((t7 _).mpr ⟨_, hm, rfl⟩) with h | h
  · exact h
  · rw [t4] at h; omega

theorem zones_owned_since (hparse : parseRRStream dbg bs = .ok inp) {fuel : Nat} {v : Verified}
    (hv : verifyRRStream dbg p fuel inp = some (.ok v))
    (hroot : ∀ k : DnsKey, k.name = rootName → Anchored p ianaAnchors k → W.owns rootName k) {n : Bytes}
    (hh : ∀ z : Name, (∃ pre, n = pre ++ z.bytes) → HonestSince p W T z)
    (hT : ∀ s, Used (codeCheck p) p inp s → T < instant s.expiration) {z : Name} (hz : Reached (codeCheck p) p inp z) :
    (∃ pre, n = pre ++ z.bytes) → ∀ k ∈ keysAt inp z, W.owns z k := by
  obtain ⟨vst, hF, _⟩ := verifyRRStream_ok hv
  induction hz with
  | root =>
    intro hs
    obtain ⟨ksig, hk⟩ := hF.keys _ .root
    refine keys_owned_since hparse (hh _ hs) ?_ hT .root hk
    intro k hk1 hk2
    rw [anchors, if_pos rfl] at hk2
    exact hroot k hk1 hk2
  | delegated y ksig sig hy hyk hsig hty ih =>
    intro hs
    obtain ⟨ksig', hk⟩ := hF.keys _ (.delegated y ksig sig hy hyk hsig hty)
    refine keys_owned_since hparse (hh _ hs) ?_ hT (.delegated y ksig sig hy hyk hsig hty) hk
    intro k hk1 hk2
    by_cases hr : sig.name = rootName
    · rw [anchors, if_pos hr] at hk2
      rw [hr] at hk1 ⊢
      exact hroot k hk1 hk2
    · rw [anchors, if_neg hr] at hk2
      have huse := hT sig ⟨y, hy, .inr hsig⟩
      obtain ⟨hin, hgood⟩ := hsig
      obtain ⟨pre, hpre⟩ := hs
      have hys : ∃ pre, n = pre ++ y.bytes := by
        obtain ⟨q, hq⟩ := (endsWith_iff _ _).mp (hF.sigs y hy sig hin).1
        exact ⟨pre ++ q, by rw [hpre, hq, List.append_assoc]⟩
      have hrr : ∀ r ∈ rrset inp sig.name sig.ty, r ∈ inp := fun r h => (mem_rrset.mp h).1
      have hds : ∀ x, (∃ r ∈ rrset inp sig.name sig.ty, rdata r = x) ↔ ∃ d ∈ dsAt inp sig.name, rdata (.ds d) = x := by
        intro x
        constructor
        · rintro ⟨r, hx, rfl⟩
          obtain ⟨a, b, c⟩ := mem_rrset.mp hx
          rw [hty] at c
          cases r with
          | ds d => exact ⟨d, mem_dsAt.mpr ⟨a, b⟩, rfl⟩
          | _ => simp only [RR.ty] at c; exact absurd c (by decide)
        · rintro ⟨d, hx, rfl⟩
          obtain ⟨a, b⟩ := mem_dsAt.mp hx
          exact ⟨.ds d, mem_rrset.mpr ⟨a, b, hty.symm⟩, rfl⟩
      have hk3 := hk2
      obtain ⟨d, hd, _⟩ := hk3
      have hmd : RR.ds d ∈ rrset inp sig.name sig.ty := by
        obtain ⟨a, b⟩ := mem_dsAt.mp hd
        exact mem_rrset.mpr ⟨a, b, hty.symm⟩
      obtain ⟨st, t1, t2, _, t4, _, _, t7, t9, t8⟩ := good_statement_of (hh y hys).unforgeable (hh y hys).fits hgood (ih hys)
        (by intro h0; rw [h0] at hmd; simp at hmd) (fun r hr => stream_sized hparse r (hrr r hr))
        (parsed_signers hparse (mem_sigsBy.mp hin).1)
      obtain ⟨w1, w2⟩ := (hh y hys).delegations st t1 (t2.trans hty)
      have hlab := owned_labels (signedOwner_owned (stream_sized hparse _ (hrr _ hmd)).1 t9 (t8 _ hmd)) w1
      rw [(mem_rrset.mp hmd).2.1] at hlab
      rcases w2 sig.name (dsAt inp sig.name) hlab (fun d h => (mem_dsAt.mp h).2) (fun x => (t7 x).trans (hds x)) k hk1 hk2 with h | h
      · exact h
      · rw [t4] at h; omega

theorem authenticated_signed_since (hparse : parseRRStream dbg bs = .ok inp) {fuel : Nat} {v : Verified}
    (hv : verifyRRStream dbg p fuel inp = some (.ok v))
    (hroot : ∀ k : DnsKey, k.name = rootName → Anchored p ianaAnchors k → W.owns rootName k) {r : RR}
    (hr : Authenticated (codeCheck p) p inp r)
    (hh : ∀ z : Name, (∃ pre, r.name.bytes = pre ++ z.bytes) → HonestSince p W T z)
    (hT : ∀ s, Used (codeCheck p) p inp s → T < instant s.expiration) :
    ∃ z sig st, Reached (codeCheck p) p inp z ∧ SignedBy (codeCheck p) inp z sig ∧ sig.name = r.name ∧ sig.ty = r.ty ∧
      (∃ pre, r.name.bytes = pre ++ z.bytes) ∧ W.signed z st ∧
      st.ty = r.ty ∧ st.origTtl = sig.origTtl ∧ st.expiration = sig.expiration ∧ st.inception = sig.inception ∧
      HasLabels z st.signer ∧ (∀ d, d ∈ st.rdatas ↔ ∃ x ∈ rrset inp r.name r.ty, rdata x = d) ∧ OwnedBy r.name st.owner ∧
      WireLabels st.owner ∧ signedOwner sig r = some (wire st.owner) := by
  obtain ⟨z, ksig, sig, hz, hk, hs, hin, hn, ht⟩ := hr
  obtain ⟨vst, hF, _⟩ := verifyRRStream_ok hv
  have hsuf : ∃ pre, r.name.bytes = pre ++ z.bytes := by rw [hn]; exact (endsWith_iff _ _).mp (hF.sigs z hz sig hs.1).1
  obtain ⟨m1, m2, _⟩ := mem_sigsBy.mp hs.1
  have hm : r ∈ rrset inp sig.name sig.ty := mem_rrset.mpr ⟨hin, hn, ht⟩
  obtain ⟨st, t1, t2, t3, t4, t5, t6, t7, t9, t8⟩ := good_statement_of (hh z hsuf).unforgeable (hh z hsuf).fits hs.2 (zones_owned_since hparse hv hroot hh hT hz hsuf)
    (by intro h0; rw [h0] at hm; simp at hm) (fun r hr => stream_sized hparse r (mem_rrset.mp hr).1) (parsed_signers hparse m1)
  exact ⟨z, sig, st, hz, hs, hn.symm, ht.symm, hsuf, t1, t2.trans ht.symm, t3, t4, t5, m2 ▸ t6, by rw [hn, ht]; exact t7,
    signedOwner_owned (stream_sized hparse r hin).1 t9 (t8 r hm), t9, t8 r hm⟩

end Dnssec
