import Verif.Spec.Sorting
import Verif.Proofs.Trust
import Verif.Proofs.Complete

/-! # Verification and the order of equal elements -/

namespace Dnssec

open Spec

variable {dbg : Bool} {p p' : Platform} {inp : List RR}

/-- Some record of the result settles the need by itself. -/
def Provable (p : Platform) (res : List RR) (need : Need) : Prop :=
  (∃ n ∈ nsecSearch res need.zone, nsecProves need n = true) ∨
  ∃ n ∈ nsec3Search res need.zone, nsec3Proves need (nsec3Params p need.name (nsec3Search res need.zone) []) n = true

theorem nsecDrop_proves {need o : Need} {n : NSec} (h : nsecProves need n = true) (hk : nsecKeep need n o = false) :
    o.name = need.name ∧ nsecProves o n = true := by
  obtain ⟨a, b⟩ := nsecDrop_denies h hk
  exact ⟨a, (nsecProves_iff _ _).mpr b⟩

theorem nsec3Drop_proves {need o : Need} {params : List (UInt16 × Bytes × Bytes)} {n : NSec3}
    (h : nsec3Proves need params n = true) (hk : nsec3Keep need params n o = false) :
    o.name = need.name ∧ nsec3Proves o params n = true := by
  unfold nsec3Proves at h ⊢
  unfold nsec3Keep at hk
  cases hu : nsec3Usable params n with
  | none => rw [hu] at h; simp at h
  | some v =>
    obtain ⟨start, hash⟩ := v
    rw [hu] at h hk
    simp only [Bool.or_eq_true, Bool.and_eq_true, beq_iff_eq, Bool.not_eq_true', bne_iff_ne] at h ⊢
    simp only [Bool.or_eq_false_iff, bne_eq_false_iff_eq, Bool.and_eq_false_iff, beq_eq_false_iff_ne] at hk
    obtain ⟨hname, hk⟩ := hk
    refine ⟨hname, ?_⟩
    by_cases hs : start = hash
    · rcases hk with hk | hk
      · exact absurd hs hk
      · exact Or.inl ⟨hs, hk⟩
    · rcases h with ⟨h1, _⟩ | h
      · exact absurd h1 hs
      · exact Or.inr h

/-- If needs of the same name are of the same zone, the loop succeeds only if every need can be settled by itself. -/
theorem proofLoop_provable {res : List RR} : ∀ {fuel : Nat} {needs : List Need}, needs.length ≤ fuel →
    (∀ a ∈ needs, ∀ b ∈ needs, a.name = b.name → a.zone = b.zone) →
    proofLoop p res fuel needs = .ok () → ∀ need ∈ needs, Provable p res need
  | _, [], _, _, _ => by simp
  | 0, need :: rest, hl, _, _ => by simp at hl
  | fuel + 1, need :: rest, hl, hz, h => by
    rw [proofLoop] at h
    have hlen : ∀ f : Need → Bool, (rest.filter f).length ≤ fuel := by
      intro f
      have := List.length_filter_le f rest
      simp at hl; omega
    have hz' : ∀ f : Need → Bool, ∀ a ∈ rest.filter f, ∀ b ∈ rest.filter f, a.name = b.name → a.zone = b.zone :=
      fun f a ha b hb => hz a (List.mem_cons_of_mem _ (List.mem_filter.mp ha).1) b (List.mem_cons_of_mem _ (List.mem_filter.mp hb).1)
    cases hf : (nsecSearch res need.zone).find? (nsecProves need) with
    | some n =>
      rw [hf] at h
      simp only at h
      have ih := proofLoop_provable (hlen _) (hz' _) h
      intro o ho
      rcases List.mem_cons.mp ho with rfl | ho'
      · exact Or.inl ⟨n, List.mem_of_find?_eq_some hf, List.find?_some hf⟩
      · by_cases hk : nsecKeep need n o = true
        · exact ih o (List.mem_filter.mpr ⟨ho', hk⟩)
        · obtain ⟨h1, h2⟩ := nsecDrop_proves (List.find?_some hf) (by simpa using hk)
          have e := hz o ho need (by simp) h1
          exact Or.inl ⟨n, by rw [e]; exact List.mem_of_find?_eq_some hf, h2⟩
    | none =>
      rw [hf] at h
      simp only at h
      cases hf3 : (nsec3Search res need.zone).find? (nsec3Proves need (nsec3Params p need.name (nsec3Search res need.zone) [])) with
      | none => rw [hf3] at h; simp at h
      | some n =>
        rw [hf3] at h
        simp only at h
        have ih := proofLoop_provable (hlen _) (hz' _) h
        intro o ho
        rcases List.mem_cons.mp ho with rfl | ho'
        · exact Or.inr ⟨n, List.mem_of_find?_eq_some hf3, List.find?_some hf3⟩
        · by_cases hk : nsec3Keep need (nsec3Params p need.name (nsec3Search res need.zone) []) n o = true
          · exact ih o (List.mem_filter.mpr ⟨ho', hk⟩)
          · obtain ⟨h1, h2⟩ := nsec3Drop_proves (List.find?_some hf3) (by simpa using hk)
            have e := hz o ho need (by simp) h1
            exact Or.inr ⟨n, by rw [e]; exact List.mem_of_find?_eq_some hf3, by rw [e, h1]; exact h2⟩

theorem proofLoop_result {res : List RR} : ∀ (fuel : Nat) (needs : List Need),
    proofLoop p res fuel needs = .ok () ∨ proofLoop p res fuel needs = .err .invalid
  | 0, _ => Or.inl rfl
  | _ + 1, [] => Or.inl rfl
  | fuel + 1, need :: rest => by
    rw [proofLoop]
    cases (nsecSearch res need.zone).find? (nsecProves need) with
    | some n => exact proofLoop_result fuel _
    | none =>
      simp only
      cases (nsec3Search res need.zone).find? (nsec3Proves need (nsec3Params p need.name (nsec3Search res need.zone) [])) with
      | none => exact Or.inr rfl
      | some n => exact proofLoop_result fuel _

theorem verifyRrsig_of_same (h : SameButSorting p p') (sig : RRSig) (keys : List DnsKey) (records : List RR) :
    verifyRrsig p sig keys records = verifyRrsig p' sig keys records := by
  have hk : ∀ l, verifyKeysLoop p sig records l = verifyKeysLoop p' sig records l := by
    intro l
    induction l with
    | nil => rfl
    | cons k ks ih =>
      rw [verifyKeysLoop, verifyKeysLoop, ih]
      unfold checkSig
      rw [h.rsaSha256, h.rsaSha512, h.ecdsaP256, h.ecdsaP384, h.ed25519]
  unfold verifyRrsig
  rw [hk]

theorem zoneLoop_of_same (h : SameButSorting p p') (fuel : Nat) :
    zoneLoop dbg p inp fuel [dot] VState.init = zoneLoop dbg p' inp fuel [dot] VState.init :=
  zoneLoop_congr ⟨fun _ _ _ => verifyRrsig_of_same h _ _ _, fun _ _ _ => verifyRrsig_of_same h _ _ _⟩ h.sha1 h.sha256 fuel _ _
    (by simp [VState.init])

/-- The two builds come to the same result, or one of them rejects what the other accepts. -/
theorem verifyRRStream_sorting (h : SameButSorting p p') (fuel : Nat) :
    verifyRRStream dbg p fuel inp = verifyRRStream dbg p' fuel inp ∨
    (∃ v, verifyRRStream dbg p fuel inp = some (.ok v) ∧ verifyRRStream dbg p' fuel inp = some (.err .invalid)) ∨
    (∃ v, verifyRRStream dbg p fuel inp = some (.err .invalid) ∧ verifyRRStream dbg p' fuel inp = some (.ok v)) := by
  unfold verifyRRStream
  rw [zoneLoop_of_same h]
  cases hz : zoneLoop dbg p' inp fuel [dot] VState.init with
  | none => exact Or.inl rfl
  | some r =>
    cases r with
    | err e => exact Or.inl rfl
    | panic => exact Or.inl rfl
    | ok st =>
      simp only
      unfold finishVerify
      by_cases h1 : st.res.isEmpty
      · rw [if_pos h1, if_pos h1]; exact Or.inl rfl
      rw [if_neg h1, if_neg h1]
      by_cases h2 : st.latestInception ≥ st.earliestExpiry
      · rw [if_pos h2, if_pos h2]; exact Or.inl rfl
      rw [if_neg h2, if_neg h2]
      simp only
      rcases proofLoop_result (p := p) (res := st.res) (p.sortNeeds st.needs).reverse.length (p.sortNeeds st.needs).reverse with a | a <;>
      rcases proofLoop_result (p := p') (res := st.res) (p'.sortNeeds st.needs).reverse.length (p'.sortNeeds st.needs).reverse with b | b <;>
      rw [a, b]
      · exact Or.inl rfl
      · exact Or.inr (Or.inl ⟨_, rfl, rfl⟩)
      · exact Or.inr (Or.inr ⟨_, rfl, rfl⟩)
      · exact Or.inl rfl

/-- With the conditions on the wildcards, what one build accepts the other does. -/
theorem verifyRRStream_sorting_accepts {fuel : Nat} {v : Verified} (h : SameButSorting p p') (ho : OwnDenials (codeCheck p) p inp)
    (hv : verifyRRStream dbg p fuel inp = some (.ok v)) : verifyRRStream dbg p' fuel inp = some (.ok v) := by
  unfold verifyRRStream at hv ⊢
  rw [← zoneLoop_of_same h]
  cases hz : zoneLoop dbg p inp fuel [dot] VState.init with
  | none => rw [hz] at hv; simp at hv
  | some r =>
    cases r with
    | err e => rw [hz] at hv; simp at hv
    | panic => rw [hz] at hv; simp at hv
    | ok st =>
      rw [hz] at hv
      simp only [Option.some.injEq] at hv ⊢
      have hF := zoneLoop_final hz
      unfold finishVerify at hv ⊢
      by_cases h1 : st.res.isEmpty = true
      · rw [if_pos h1] at hv; simp at hv
      rw [if_neg h1] at hv ⊢
      by_cases h2 : st.latestInception ≥ st.earliestExpiry
      · rw [if_pos h2] at hv; simp at hv
      rw [if_neg h2] at hv ⊢
      simp only at hv ⊢
      have hm : ∀ need, need ∈ (p.sortNeeds st.needs).reverse ↔ need ∈ st.needs := by
        intro need; rw [List.mem_reverse, (p.sortNeeds_perm st.needs).mem_iff]
      have hm' : ∀ need, need ∈ (p'.sortNeeds st.needs).reverse ↔ need ∈ st.needs := by
        intro need; rw [List.mem_reverse, (p'.sortNeeds_perm st.needs).mem_iff]
      have hzone : ∀ a ∈ st.needs, ∀ b ∈ st.needs, a.name = b.name → a.zone = b.zone := by
        intro a ha b hb hab
        rw [hF.eff.needs] at ha hb
        obtain ⟨s, ⟨z, hz, hs⟩, c1, c2, c3, c4, c5⟩ := ha
        obtain ⟨s', ⟨z', hz', hs'⟩, d1, d2, d3, d4, d5⟩ := hb
        rw [c3, d3, (mem_sigsBy.mp hs.1).2.1, (mem_sigsBy.mp hs'.1).2.1]
        exact ho z s z' s' hz hs c1 c2 hz' hs' d1 d2 a.name c5 (by rw [hab]; exact d5)
      rcases proofLoop_result (p := p) (res := st.res) (p.sortNeeds st.needs).reverse.length (p.sortNeeds st.needs).reverse with a | a
      · have hprov := proofLoop_provable (Nat.le_refl _) (fun a ha b hb => hzone a ((hm a).mp ha) b ((hm b).mp hb)) a
        have hloop : proofLoop p st.res (p'.sortNeeds st.needs).reverse.length (p'.sortNeeds st.needs).reverse = .ok () :=
          proofLoop_complete _ _ (fun need hn => hprov need ((hm need).mpr ((hm' need).mp hn)))
        rw [proofLoop_congr h.sha1] at hloop
        rw [a] at hv
        rw [hloop]
        exact hv
      · rw [a] at hv; simp at hv

theorem Spec.SameButSorting.symm (h : SameButSorting p p') : SameButSorting p' p :=
  ⟨h.sha1.symm, h.sha256.symm, h.rsaSha256.symm, h.rsaSha512.symm, h.ecdsaP256.symm, h.ecdsaP384.symm, h.ed25519.symm⟩

theorem codeCheck_of_same (h : SameButSorting p p') : codeCheck p = codeCheck p' := by
  unfold codeCheck
  simp only [verifyRrsig_of_same h]

theorem anchoredKeys_of_same (h : SameButSorting p p') (dses : List DS) (keys : List DnsKey) :
    anchoredKeys p dses keys = anchoredKeys p' dses keys := by
  unfold anchoredKeys
  refine List.filter_congr fun k _ => decide_eq_decide.mpr ?_
  unfold Anchored Vouches
  rw [h.sha1, h.sha256]

theorem zoneKeysOk_of_same (h : SameButSorting p p') (S : SigCheck) (z : Name) (s : RRSig) (hk : ZoneKeysOk S p inp z s) :
    ZoneKeysOk S p' inp z s := by
  unfold ZoneKeysOk Establishes at *
  rw [← anchoredKeys_of_same h]
  exact hk

theorem reached_of_same (h : SameButSorting p p') {S : SigCheck} {z : Name} (hr : Reached S p inp z) : Reached S p' inp z := by
  induction hr with
  | root => exact .root
  | delegated z ksig sig _ b c d ih => exact .delegated z ksig sig ih (zoneKeysOk_of_same h S z ksig b) c d

theorem ownDenials_of_same (h : SameButSorting p p') (ho : OwnDenials (codeCheck p) p inp) : OwnDenials (codeCheck p') p' inp := by
  rw [← codeCheck_of_same h]
  intro z s z' s' a b c d a' b' c' d'
  exact ho z s z' s' (reached_of_same h.symm a) b c d (reached_of_same h.symm a') b' c' d'

end Dnssec
