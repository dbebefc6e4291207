import Verif.Spec.Split
import Verif.Proofs.Closed
import Verif.Proofs.Relevant

/-! # Proofs without some of their signatures -/

namespace Dnssec

open Spec

variable {dbg : Bool} {p : Platform} {inp : List RR} {K : RRSig → Bool}

theorem mem_withSigs {r : RR} : r ∈ withSigs inp K ↔ r ∈ inp ∧ ∀ s, r = .rrsig s → K s = true := by
  unfold withSigs
  rw [List.mem_filter]
  cases r <;> simp

theorem withSigs_rrset (n : Name) {ty : UInt16} (h : ty ≠ 46) : rrset (withSigs inp K) n ty = rrset inp n ty := by
  unfold rrset withSigs
  rw [List.filter_filter]
  apply List.filter_congr
  intro r _
  cases r <;> simp
  rename_i s
  intro _ e
  exact absurd e.symm h

theorem withSigs_keysAt (z : Name) : keysAt (withSigs inp K) z = keysAt inp z := by
  apply filterMap_filter_keep
  intro x _ hf
  cases x <;> first | rfl | exact absurd rfl hf

theorem withSigs_dsAt (z : Name) : dsAt (withSigs inp K) z = dsAt inp z := by
  apply filterMap_filter_keep
  intro x _ hf
  cases x <;> first | rfl | exact absurd rfl hf

theorem withSigs_anchors (z : Name) : anchors (withSigs inp K) z = anchors inp z := by
  unfold anchors
  rw [withSigs_dsAt]

theorem withSigs_keySigs (hK : ∀ s, RR.rrsig s ∈ inp → s.ty = 48 → K s = true) (z : Name) : keySigs (withSigs inp K) z = keySigs inp z := by
  apply filterMap_filter_keep
  intro x hx hf
  cases x with
  | rrsig s =>
    by_cases h : s.name = z ∧ s.ty = 48
    · exact hK s hx h.2
    · simp [h] at hf
  | _ => exact absurd rfl hf

theorem withSigs_mem_sigsBy {z : Name} {s : RRSig} : s ∈ sigsBy (withSigs inp K) z ↔ s ∈ sigsBy inp z ∧ K s = true := by
  rw [mem_sigsBy, mem_sigsBy, mem_withSigs]
  constructor
  · rintro ⟨⟨a, b⟩, c⟩; exact ⟨⟨a, c⟩, b s rfl⟩
  · rintro ⟨⟨a, c⟩, b⟩
    refine ⟨⟨a, fun t e => ?_⟩, c⟩
    cases e
    exact b

theorem withSigs_zoneKeysOk (hK : ∀ s, RR.rrsig s ∈ inp → s.ty = 48 → K s = true) (z : Name) (s : RRSig) :
    ZoneKeysOk (codeCheck p) p (withSigs inp K) z s ↔ ZoneKeysOk (codeCheck p) p inp z s := by
  unfold ZoneKeysOk
  rw [withSigs_keySigs hK, withSigs_anchors, withSigs_keysAt]

theorem withSigs_signedBy (h46 : ∀ s, K s = true → s.ty ≠ 46) (z : Name) (s : RRSig) :
    SignedBy (codeCheck p) (withSigs inp K) z s ↔ SignedBy (codeCheck p) inp z s ∧ K s = true := by
  unfold SignedBy
  rw [withSigs_mem_sigsBy, withSigs_keysAt]
  constructor
  · rintro ⟨⟨a, b⟩, c⟩
    rw [withSigs_rrset _ (h46 s b)] at c
    exact ⟨⟨a, c⟩, b⟩
  · rintro ⟨⟨a, c⟩, b⟩
    refine ⟨⟨a, b⟩, ?_⟩
    rw [withSigs_rrset _ (h46 s b)]
    exact c

variable (hK : ∀ s, RR.rrsig s ∈ inp → s.ty = 48 ∨ s.ty = 43 → K s = true) (h46 : ∀ s, K s = true → s.ty ≠ 46)
include hK h46

theorem withSigs_reached (z : Name) : Reached (codeCheck p) p (withSigs inp K) z ↔ Reached (codeCheck p) p inp z := by
  constructor
  · intro h
    induction h with
    | root => exact .root
    | delegated z ksig sig _ h2 h3 h4 ih =>
      exact .delegated z ksig sig ih ((withSigs_zoneKeysOk (fun s a b => hK s a (Or.inl b)) z ksig).mp h2)
        ((withSigs_signedBy h46 z sig).mp h3).1 h4
  · intro h
    induction h with
    | root => exact .root
    | delegated z ksig sig _ h2 h3 h4 ih =>
      exact .delegated z ksig sig ih ((withSigs_zoneKeysOk (fun s a b => hK s a (Or.inl b)) z ksig).mpr h2)
        ((withSigs_signedBy h46 z sig).mpr ⟨h3, hK sig (mem_sigsBy.mp h3.1).1 (Or.inr h4)⟩) h4

theorem withSigs_used {s : RRSig} (h : Used (codeCheck p) p (withSigs inp K) s) : Used (codeCheck p) p inp s := by
  obtain ⟨z, hz, h⟩ := h
  refine ⟨z, (withSigs_reached hK h46 z).mp hz, h.imp ?_ ?_⟩
  · exact (withSigs_zoneKeysOk (fun s a b => hK s a (Or.inl b)) z s).mp
  · exact fun h => ((withSigs_signedBy h46 z s).mp h).1

theorem withSigs_authenticated (r : RR) : Authenticated (codeCheck p) p (withSigs inp K) r ↔
    ∃ z ksig s, Reached (codeCheck p) p inp z ∧ ZoneKeysOk (codeCheck p) p inp z ksig ∧ SignedBy (codeCheck p) inp z s ∧ K s = true ∧
      r ∈ inp ∧ r.name = s.name ∧ r.ty = s.ty := by
  unfold Authenticated
  simp only [withSigs_reached hK h46, withSigs_zoneKeysOk (fun s a b => hK s a (Or.inl b)), withSigs_signedBy h46]
  constructor
  · rintro ⟨z, ksig, s, a, b, ⟨c, d⟩, e, f, g⟩
    exact ⟨z, ksig, s, a, b, c, d, (mem_withSigs.mp e).1, f, g⟩
  · rintro ⟨z, ksig, s, a, b, c, d, e, f, g⟩
    refine ⟨z, ksig, s, a, b, ⟨c, d⟩, mem_withSigs.mpr ⟨e, ?_⟩, f, g⟩
    rintro t rfl
    exact absurd g.symm (h46 s d)

theorem withSigs_clean (hc : Clean dbg p inp) : Clean dbg p (withSigs inp K) := by
  intro z hz
  obtain ⟨⟨ksig, hk⟩, hs⟩ := hc z ((withSigs_reached hK h46 z).mp hz)
  refine ⟨⟨ksig, (withSigs_zoneKeysOk (fun s a b => hK s a (Or.inl b)) z ksig).mpr hk⟩, ?_⟩
  intro s h
  obtain ⟨h1, h2⟩ := withSigs_mem_sigsBy.mp h
  obtain ⟨a, b⟩ := hs s h1
  refine ⟨a, ?_⟩
  rw [withSigs_keysAt, withSigs_rrset _ (h46 s h2), withSigs_signedBy h46]
  exact b.imp id fun b => ⟨⟨b.1, h2⟩, b.2⟩

/-- An accepted proof is accepted without some of its signatures, if those over keys and delegations remain, some other ones too, and the
denials for them. -/
theorem withSigs_accepts {fuel : Nat} {v : Verified} (h : verifyRRStream dbg p fuel inp = some (.ok v))
    (hne : ∃ z s, Reached (codeCheck p) p inp z ∧ SignedBy (codeCheck p) inp z s ∧ K s = true ∧ s.ty ≠ 43 ∧ ∃ r ∈ inp, r.name = s.name ∧ r.ty = s.ty)
    (hd : ∀ z s, Reached (codeCheck p) p inp z → SignedBy (codeCheck p) inp z s → K s = true → s.ty ≠ 43 → Expanded s →
      ∀ name, s.name.trailingNLabels (s.labels + 1) = some name → DeniedIn (codeCheck p) p (withSigs inp K) z name s.ty) :
    ∃ fuel v', verifyRRStream dbg p fuel (withSigs inp K) = some (.ok v') := by
  obtain ⟨h1, ⟨d, hd1, hd2⟩, h3, _, h5⟩ := verifyRRStream_ok_needs h
  obtain ⟨z, s, hz, hs, hks, ht, r, hr, hr1, hr2⟩ := hne
  obtain ⟨⟨ksig, hk⟩, _⟩ := h1 z hz
  refine verifyRRStream_accepts' (withSigs_clean hK h46 h1)
    ⟨d, (withSigs_signedBy h46 _ d).mpr ⟨hd1, hK d (mem_sigsBy.mp hd1.1).1 (Or.inr hd2)⟩, hd2⟩ ?_
    ⟨r, (withSigs_authenticated hK h46 r).mpr ⟨z, ksig, s, hz, hk, hs, hks, hr, hr1, hr2⟩, by rw [hr2]; exact ht⟩
    (fun a b ha hb => h5 a b (withSigs_used hK h46 ha) (withSigs_used hK h46 hb)) ?_
  · rintro ⟨z, hz, s, hs, ht, hn⟩
    exact h3 ⟨z, (withSigs_reached hK h46 z).mp hz, s, ((withSigs_signedBy h46 z s).mp hs).1, ht, hn⟩
  · intro z s hz hs ht hx name hname
    obtain ⟨hs, hks⟩ := (withSigs_signedBy h46 z s).mp hs
    exact hd z s ((withSigs_reached hK h46 z).mp hz) hs hks ht hx name hname

end Dnssec
