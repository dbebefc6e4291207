import Verif.Spec.Combine
import Verif.Proofs.Closed
import Verif.Proofs.Monotone

/-! # Lemmas about combined proofs -/

namespace Dnssec

open Spec

variable {dbg : Bool} {p : Platform} {parts : List (List RR)} {m a : List RR}

theorem keysAt_eq (inp : List RR) (z : Name) :
    keysAt inp z = (rrset inp z 48).filterMap (fun | .dnskey k => some k | _ => none) := by
  unfold keysAt rrset
  induction inp with
  | nil => rfl
  | cons r inp ih =>
    rw [List.filterMap_cons, List.filter_cons]
    cases r with
    | dnskey k =>
      by_cases h : k.name = z
      · have h' : decide ((RR.dnskey k).name = z ∧ (RR.dnskey k).ty = 48) = true := by simp [RR.name, h, RR.ty, dnskeyType]
        rw [if_pos h', List.filterMap_cons]
        simp only [if_pos h, ih]
      · have h' : ¬ decide ((RR.dnskey k).name = z ∧ (RR.dnskey k).ty = 48) = true := by simp [RR.name, h]
        rw [if_neg h']
        simp only [if_neg h, ih]
    | _ =>
      simp only [ih]
      split
      · rename_i h
        have h2 := (of_decide_eq_true h).2
        simp only [RR.ty] at h2
        exact absurd h2 (by decide)
      · rfl

/-- The standing assumptions. -/
structure Parts (dbg : Bool) (p : Platform) (parts : List (List RR)) (m : List RR) : Prop where
  combines : Combines parts m
  tags : NoTagCollision m
  agree : KeySigsAgree (codeCheck p) p m
  times : SameKeyTimes m
  clean : ∀ a ∈ parts, Clean dbg p a
  stray : ∀ a ∈ parts, NoStraySigs p a

namespace Parts

variable (H : Parts dbg p parts m)
include H

theorem keySig (ha : a ∈ parts) {z : Name} (hz : Reached (codeCheck p) p a z) :
    ∃ ksig, ZoneKeysOk (codeCheck p) p a z ksig ∧ RR.rrsig ksig ∈ a ∧ ksig.name = z ∧ ksig.ty = 48 := by
  obtain ⟨⟨ksig, hk⟩, _⟩ := H.clean a ha z hz
  obtain ⟨h1, h2, h3, _⟩ := zoneKeysOk_sig hk
  exact ⟨ksig, hk, h1, h2, h3⟩

theorem keys (ha : a ∈ parts) {z : Name} (hz : Reached (codeCheck p) p a z) : (keysAt m z).Perm (keysAt a z) := by
  obtain ⟨ksig, _, h1, h2, h3⟩ := H.keySig ha hz
  rw [keysAt_eq, keysAt_eq]
  have := H.combines.sets a ha ksig h1
  rw [h2, h3] at this
  exact this.filterMap _

theorem anchors (ha : a ∈ parts) {z : Name} (hz : Reached (codeCheck p) p a z) (d : DS) : d ∈ anchors m z ↔ d ∈ anchors a z := by
  unfold Spec.anchors
  split
  · exact Iff.rfl
  · rename_i hne
    cases hz with
    | root => exact absurd rfl hne
    | delegated z0 ksig sig h1 h2 h3 h4 =>
      have hp := H.combines.sets a ha sig (mem_sigsBy.mp h3.1).1
      rw [h4] at hp
      rw [mem_dsAt, mem_dsAt]
      have := hp.mem_iff (a := RR.ds d)
      rw [mem_rrset, mem_rrset] at this
      constructor
      · rintro ⟨x, y⟩
        exact ⟨(this.mp ⟨x, y, rfl⟩).1, y⟩
      · rintro ⟨x, y⟩
        exact ⟨(this.mpr ⟨x, y, rfl⟩).1, y⟩

theorem check (ha : a ∈ parts) {z : Name} (hz : Reached (codeCheck p) p a z) {s : RRSig} (hs : RR.rrsig s ∈ a) :
    (verifyRrsig p s (keysAt m z) (rrset m s.name s.ty) = .ok () ↔ verifyRrsig p s (keysAt a z) (rrset a s.name s.ty) = .ok ()) ∧
    (verifyRrsig p s (keysAt m z) (rrset m s.name s.ty) = .err .unsupported ↔
      verifyRrsig p s (keysAt a z) (rrset a s.name s.ty) = .err .unsupported) :=
  verifyRrsig_keys (H.combines.sets a ha s hs) (fun _ => (H.keys ha hz).mem_iff)
    (keysAt_unique H.tags ((H.combines.sigs s).mpr ⟨a, ha, hs⟩))

theorem zoneKeys (ha : a ∈ parts) {z : Name} (hz : Reached (codeCheck p) p a z) (hzm : Reached (codeCheck p) p m z) :
    ∃ s, ZoneKeysOk (codeCheck p) p m z s := by
  obtain ⟨s, ⟨⟨d, hd, hd'⟩, before, after, e, _, hg⟩, k1, k2, k3⟩ := H.keySig ha hz
  have hanch : ∀ k, Anchored p (Spec.anchors m z) k ↔ Anchored p (Spec.anchors a z) k := by
    intro k
    unfold Anchored
    simp only [H.anchors ha hz]
  refine (keysOk_iff (H.agree z hzm)).mpr ⟨⟨d, (H.anchors ha hz d).mpr hd, hd'⟩, s,
    mem_keySigs.mpr ⟨(H.combines.sigs s).mpr ⟨a, ha, k1⟩, k2, k3⟩, ?_⟩
  refine (verifyRrsig_keys ((H.keys ha hz).map _) (fun k => ?_) ?_).1.mpr hg
  · unfold anchoredKeys
    simp only [List.mem_filter, decide_eq_true_eq, (H.keys ha hz).mem_iff, hanch]
  · intro k hk k' hk'
    exact keysAt_unique H.tags ((H.combines.sigs s).mpr ⟨a, ha, k1⟩) k (List.mem_filter.mp hk).1 k' (List.mem_filter.mp hk').1

theorem signedBy (z : Name) (s : RRSig) : SignedBy (codeCheck p) m z s ↔
    ∃ b ∈ parts, Reached (codeCheck p) p b z ∧ SignedBy (codeCheck p) b z s := by
  constructor
  · rintro ⟨h1, h2⟩
    obtain ⟨c, d, e⟩ := mem_sigsBy.mp h1
    obtain ⟨b, hb, hs⟩ := (H.combines.sigs s).mp c
    have hz := H.stray b hb s hs e
    rw [d] at hz
    exact ⟨b, hb, hz, mem_sigsBy.mpr ⟨hs, d, e⟩, (H.check hb hz hs).1.mp h2⟩
  · rintro ⟨b, hb, hz, h1, h2⟩
    obtain ⟨c, d, e⟩ := mem_sigsBy.mp h1
    exact ⟨mem_sigsBy.mpr ⟨(H.combines.sigs s).mpr ⟨b, hb, c⟩, d, e⟩, (H.check hb hz c).1.mpr h2⟩

theorem reached (hne : parts ≠ []) (z : Name) : Reached (codeCheck p) p m z ↔ ∃ a ∈ parts, Reached (codeCheck p) p a z := by
  constructor
  · intro hz
    induction hz with
    | root =>
      obtain ⟨a, ha⟩ := List.exists_mem_of_ne_nil _ hne
      exact ⟨a, ha, .root⟩
    | delegated z ksig sig _ _ h3 h4 _ =>
      obtain ⟨b, hb, hz, hs⟩ := (H.signedBy z sig).mp h3
      obtain ⟨k, hk, _⟩ := H.keySig hb hz
      exact ⟨b, hb, .delegated z k sig hz hk hs h4⟩
  · rintro ⟨a, ha, hz⟩
    induction hz with
    | root => exact .root
    | delegated z ksig sig h1 h2 h3 h4 ih =>
      obtain ⟨k, hk⟩ := H.zoneKeys ha h1 ih
      exact .delegated z k sig ih hk ((H.signedBy z sig).mpr ⟨a, ha, h1, h3⟩) h4

theorem authenticated (hne : parts ≠ []) (r : RR) :
    Authenticated (codeCheck p) p m r ↔ ∃ a ∈ parts, Authenticated (codeCheck p) p a r := by
  constructor
  · rintro ⟨z, ksig, sig, h1, h2, h3, h4, h5, h6⟩
    obtain ⟨b, hb, hz, hs⟩ := (H.signedBy z sig).mp h3
    obtain ⟨k, hk, _⟩ := H.keySig hb hz
    have := ((H.combines.sets b hb sig (mem_sigsBy.mp hs.1).1).mem_iff (a := r)).mp (mem_rrset.mpr ⟨h4, h5, h6⟩)
    exact ⟨b, hb, z, k, sig, hz, hk, hs, (mem_rrset.mp this).1, h5, h6⟩
  · rintro ⟨b, hb, z, ksig, sig, h1, h2, h3, h4, h5, h6⟩
    have := ((H.combines.sets b hb sig (mem_sigsBy.mp h3.1).1).mem_iff (a := r)).mpr (mem_rrset.mpr ⟨h4, h5, h6⟩)
    have hzm := (H.reached hne z).mpr ⟨b, hb, h1⟩
    obtain ⟨k, hk⟩ := H.zoneKeys hb h1 hzm
    exact ⟨z, k, sig, hzm, hk, (H.signedBy z sig).mpr ⟨b, hb, h1, h3⟩,
      (mem_rrset.mp this).1, h5, h6⟩

theorem used (hne : parts ≠ []) {s : RRSig} (hs : Used (codeCheck p) p m s) : ∃ a ∈ parts, ∃ s', Used (codeCheck p) p a s' ∧
    s.inception = s'.inception ∧ s.expiration = s'.expiration ∧ s.origTtl = s'.origTtl := by
  obtain ⟨z, hz, h | h⟩ := hs
  · obtain ⟨a, ha, hz⟩ := (H.reached hne z).mp hz
    obtain ⟨k, hk, b1, b2, b3⟩ := H.keySig ha hz
    obtain ⟨a1, a2, a3, a4⟩ := zoneKeysOk_sig h
    exact ⟨a, ha, k, ⟨z, hz, Or.inl hk⟩,
      H.times s k a1 ((H.combines.sigs k).mpr ⟨a, ha, b1⟩) a3 b3 (a2.trans b2.symm) a4 (zoneKeysOk_sig hk).2.2.2⟩
  · obtain ⟨b, hb, hz, hs⟩ := (H.signedBy z s).mp h
    exact ⟨b, hb, s, ⟨z, hz, Or.inr hs⟩, rfl, rfl, rfl⟩

theorem used_of (hne : parts ≠ []) (ha : a ∈ parts) {s : RRSig} (hs : Used (codeCheck p) p a s) : ∃ s', Used (codeCheck p) p m s' ∧
    s.inception = s'.inception ∧ s.expiration = s'.expiration ∧ s.origTtl = s'.origTtl := by
  obtain ⟨z, hz, h | h⟩ := hs
  · have hzm := (H.reached hne z).mpr ⟨a, ha, hz⟩
    obtain ⟨k, hk⟩ := H.zoneKeys ha hz hzm
    obtain ⟨a1, a2, a3, a4⟩ := zoneKeysOk_sig h
    obtain ⟨b1, b2, b3, b4⟩ := zoneKeysOk_sig hk
    exact ⟨k, ⟨z, hzm, Or.inl hk⟩, H.times s k ((H.combines.sigs s).mpr ⟨a, ha, a1⟩) b1 a3 b3 (a2.trans b2.symm) a4 b4⟩
  · exact ⟨s, ⟨z, (H.reached hne z).mpr ⟨a, ha, hz⟩, Or.inr ((H.signedBy z s).mpr ⟨a, ha, hz, h⟩)⟩, rfl, rfl, rfl⟩

theorem isClean (hne : parts ≠ []) : Clean dbg p m := by
  intro z hz
  obtain ⟨a, ha, hza⟩ := (H.reached hne z).mp hz
  refine ⟨H.zoneKeys ha hza hz, fun s hs => ?_⟩
  obtain ⟨c, d, e⟩ := mem_sigsBy.mp hs
  obtain ⟨b, hb, hsb⟩ := (H.combines.sigs s).mp c
  have hzb := H.stray b hb s hsb e
  rw [d] at hzb
  obtain ⟨x, y⟩ := (H.clean b hb z hzb).2 s (mem_sigsBy.mpr ⟨hsb, d, e⟩)
  refine ⟨x, y.imp (H.check hb hzb hsb).2.mpr ?_⟩
  rintro ⟨y1, y2⟩
  exact ⟨(H.signedBy z s).mpr ⟨b, hb, hzb, y1⟩, y2⟩

theorem uniform (hne : parts ≠ []) (ha : a ∈ parts) (hu : UniformDenials (codeCheck p) p m) : UniformDenials (codeCheck p) p a := by
  refine ⟨fun z hz => ?_, ?_⟩
  · obtain ⟨x, y, hxy⟩ := hu.1 z ((H.reached hne z).mpr ⟨a, ha, hz⟩)
    exact ⟨x, y, fun n hn => hxy n ⟨(H.authenticated hne _).mpr ⟨a, ha, hn.1⟩, hn.2⟩⟩
  intro z s z' s' h1 h2 h3 h4 h1' h2' h3' h4'
  exact hu.2 z s z' s' ((H.reached hne z).mpr ⟨a, ha, h1⟩) ((H.signedBy z s).mpr ⟨a, ha, h1, h2⟩) h3 h4
    ((H.reached hne z').mpr ⟨a, ha, h1'⟩) ((H.signedBy z' s').mpr ⟨a, ha, h1', h2'⟩) h3' h4'

theorem denied (hne : parts ≠ []) (hu : UniformDenials (codeCheck p) p m) (h : ∀ a ∈ parts, WildcardsDenied (codeCheck p) p a) :
    WildcardsDenied (codeCheck p) p m := by
  intro z s hz hs h1 h2 name hn
  obtain ⟨b, hb, hzb, hsb⟩ := (H.signedBy z s).mp hs
  rcases h b hb z s hzb hsb h1 h2 name hn with ⟨n, x, y⟩ | ⟨n, x, y1, y2, _⟩
  · exact Or.inl ⟨n, (H.authenticated hne _).mpr ⟨b, hb, x⟩, y⟩
  · have hx := (H.authenticated hne _).mpr ⟨b, hb, x⟩
    exact Or.inr ⟨n, hx, y1, y2, hu.1 z hz⟩

end Parts

end Dnssec
