import Verif.Proofs.Termination
import Verif.Proofs.Denial

/-! # What is sufficient for acceptance -/

namespace Dnssec

open Spec

variable {dbg : Bool} {p : Platform} {inp : List RR}

theorem proofLoop_complete {res : List RR} : ∀ (fuel : Nat) (needs : List Need),
    (∀ need ∈ needs, (∃ n ∈ nsecSearch res need.zone, nsecProves need n = true) ∨
      ∃ n ∈ nsec3Search res need.zone, nsec3Proves need (nsec3Params p need.name (nsec3Search res need.zone) []) n = true) →
    proofLoop p res fuel needs = .ok ()
  | 0, _, _ => rfl
  | _ + 1, [], _ => rfl
  | fuel + 1, need :: rest, h => by
    have hrest : ∀ f : Need → Bool, ∀ need ∈ rest.filter f, (∃ n ∈ nsecSearch res need.zone, nsecProves need n = true) ∨
        ∃ n ∈ nsec3Search res need.zone, nsec3Proves need (nsec3Params p need.name (nsec3Search res need.zone) []) n = true :=
      fun f o ho => h o (List.mem_cons_of_mem _ (List.mem_filter.mp ho).1)
    rw [proofLoop]
    cases hf : (nsecSearch res need.zone).find? (nsecProves need) with
    | some n => exact proofLoop_complete fuel _ (hrest _)
    | none =>
      simp only
      cases hf3 : (nsec3Search res need.zone).find? (nsec3Proves need (nsec3Params p need.name (nsec3Search res need.zone) [])) with
      | some n => exact proofLoop_complete fuel _ (hrest _)
      | none =>
        exfalso
        rw [List.find?_eq_none] at hf hf3
        rcases h need (by simp) with ⟨n, a, b⟩ | ⟨n, a, b⟩
        · exact hf n a b
        · exact hf3 n a b

/-- If the NSEC3 records have at most two sets of parameters within the limits, both are hashed. -/
theorem nsec3Params_two (name : Bytes) (a b : UInt16 × Bytes) (it : UInt16) (salt : Bytes) (hit : it.toNat ≤ 2500) :
    ∀ (ns : List NSec3) (acc : List (UInt16 × Bytes × Bytes)),
      (∀ n ∈ ns, n.hashAlgo = 1 → n.hashIterations.toNat ≤ 2500 → (n.hashIterations, n.salt) = a ∨ (n.hashIterations, n.salt) = b) →
      acc.length < 2 → (it, salt) = a ∨ (it, salt) = b →
      (∃ n ∈ ns, n.hashAlgo = 1 ∧ n.hashIterations = it ∧ n.salt = salt) ∨ (it, salt, nsec3Hash p name salt it) ∈ acc →
      (∀ e ∈ acc, e.2.2 = nsec3Hash p name e.2.1 e.1 ∧ ((e.1, e.2.1) = a ∨ (e.1, e.2.1) = b)) →
      (it, salt, nsec3Hash p name salt it) ∈ nsec3Params p name ns acc
  | [], acc, _, _, _, h, _ => by
    rcases h with ⟨n, hn, _⟩ | h
    · simp at hn
    · exact h
  | n :: ns, acc, hall, hl, ht, h, hacc => by
    have hall' := fun m hm => hall m (List.mem_cons_of_mem n hm)
    have skip : ¬ (n.hashAlgo = 1 ∧ n.hashIterations = it ∧ n.salt = salt) →
        (∃ m ∈ ns, m.hashAlgo = 1 ∧ m.hashIterations = it ∧ m.salt = salt) ∨ (it, salt, nsec3Hash p name salt it) ∈ acc := by
      intro hn
      rcases h with ⟨m, hm, hm1⟩ | h
      · rcases List.mem_cons.mp hm with rfl | hm
        · exact absurd hm1 hn
        · exact Or.inl ⟨m, hm, hm1⟩
      · exact Or.inr h
    rw [nsec3Params]
    by_cases hi : n.hashIterations > 2500
    · rw [if_pos hi]
      refine nsec3Params_two name a b it salt hit ns acc hall' hl ht (skip ?_) hacc
      rintro ⟨_, e, _⟩
      rw [e] at hi
      have := UInt16.lt_iff_toNat_lt.mp hi
      simp at this
      omega
    rw [if_neg hi]
    have hi' : n.hashIterations.toNat ≤ 2500 := by
      have := UInt16.not_lt.mp hi
      simpa using UInt16.le_iff_toNat_le.mp this
    by_cases ha : n.hashAlgo ≠ 1
    · rw [if_pos ha]
      exact nsec3Params_two name a b it salt hit ns acc hall' hl ht (skip fun e => ha e.1) hacc
    rw [if_neg ha]
    have ha' : n.hashAlgo = 1 := Decidable.not_not.mp ha
    have hn := hall n (by simp) ha' hi'
    by_cases hany : acc.any (fun (i, s, _) => i == n.hashIterations && s == n.salt) = true
    · rw [if_pos hany]
      refine nsec3Params_two name a b it salt hit ns acc hall' hl ht ?_ hacc
      by_cases hsame : n.hashAlgo = 1 ∧ n.hashIterations = it ∧ n.salt = salt
      · rw [List.any_eq_true] at hany
        obtain ⟨⟨i, s, x⟩, he, hes⟩ := hany
        simp only [Bool.and_eq_true, beq_iff_eq] at hes
        have hx := (hacc _ he).1
        simp only at hx
        rw [hx, hes.1, hes.2, hsame.2.1, hsame.2.2] at he
        exact Or.inr he
      · exact skip hsame
    · rw [if_neg hany]
      simp only
      have hany' : ∀ e ∈ acc, (e.1, e.2.1) ≠ (n.hashIterations, n.salt) := by
        intro e he hc
        apply hany
        rw [List.any_eq_true]
        refine ⟨e, he, ?_⟩
        rw [Prod.mk.injEq] at hc
        simp [hc.1, hc.2]
      split
      · rename_i hlen
        rw [List.length_append, List.length_singleton] at hlen
        obtain ⟨e, rfl⟩ : ∃ e, acc = [e] := List.length_eq_one_iff.mp (by omega)
        by_cases hsame : n.hashIterations = it ∧ n.salt = salt
        · rw [hsame.1, hsame.2]; simp
        · have he := hacc e (by simp)
          have hne := hany' e (by simp)
          have hnt : (n.hashIterations, n.salt) ≠ (it, salt) := by simpa using hsame
          have het : (e.1, e.2.1) = (it, salt) := by
            rcases hn with hn | hn <;> rcases he.2 with h2 | h2 <;> rcases ht with h3 | h3
            · exact absurd (h2.trans hn.symm) hne
            · exact absurd (h2.trans hn.symm) hne
            · exact absurd (hn.trans h3.symm) hnt
            · exact h2.trans h3.symm
            · exact h2.trans h3.symm
            · exact absurd (hn.trans h3.symm) hnt
            · exact absurd (h2.trans hn.symm) hne
            · exact absurd (h2.trans hn.symm) hne
          rw [Prod.mk.injEq] at het
          have : e = (it, salt, nsec3Hash p name salt it) := by
            rw [← het.1, ← het.2, ← he.1]
          rw [← this]
          simp
      · rename_i hlt
        refine nsec3Params_two name a b it salt hit ns _ hall' (by omega) ht ?_ ?_
        · by_cases hsame : n.hashAlgo = 1 ∧ n.hashIterations = it ∧ n.salt = salt
          · rw [hsame.2.1, hsame.2.2]; exact Or.inr (by simp)
          · exact (skip hsame).imp id (fun h => List.mem_append_left _ h)
        · intro e he
          rcases List.mem_append.mp he with he | he
          · exact hacc e he
          · rw [List.mem_singleton] at he
            subst he
            exact ⟨rfl, hn⟩

theorem nsec3Params_hash {name : Bytes} {search : List NSec3} {n : NSec3} (hn : n ∈ search) (ha : n.hashAlgo = 1)
    (hit : n.hashIterations.toNat ≤ 2500)
    (hsame : TwoParameterSets (· ∈ search)) :
    ∃ e, (nsec3Params p name search []).find? (fun (it, salt, _) => it == n.hashIterations && salt == n.salt) =
      some e ∧ e.2.2 = iteratedHash p.sha1 n.salt (writeName name) n.hashIterations.toNat := by
  obtain ⟨a, b, hsame⟩ := hsame
  have hm := nsec3Params_two (p := p) name a b n.hashIterations n.salt hit search [] hsame (by simp) (hsame n hn ha hit)
    (Or.inl ⟨n, hn, ha, rfl, rfl⟩) (by simp)
  cases hf : (nsec3Params p name search []).find? (fun (it, salt, _) => it == n.hashIterations && salt == n.salt) with
  | none =>
    rw [List.find?_eq_none] at hf
    have := hf _ hm
    simp at this
  | some e =>
    refine ⟨e, rfl, ?_⟩
    have he := List.find?_some hf
    simp only [Bool.and_eq_true, beq_iff_eq] at he
    have := (nsec3Params_ok p name search [] (by simp) e (List.mem_of_find?_eq_some hf)).2
    rw [this, he.1, he.2, nsec3Hash_eq]

theorem nsec3Proves_of_denies {need : Need} {search : List NSec3} {n : NSec3} (hn : n ∈ search)
    (hd : Nsec3Denies p n need.name need.ty)
    (hsame : TwoParameterSets (· ∈ search)) :
    nsec3Proves need (nsec3Params p need.name search []) n = true := by
  obtain ⟨e, h1, h2⟩ := nsec3Params_hash (p := p) (name := need.name) hn hd.algo hd.iterations hsame
  obtain ⟨label, rest, start, g1, g2, g3, g4, g5, g6⟩ := ((nsec3Denies_iff _ _ _ _).mp hd).denies
  have hs : splitOnceDot n.name.bytes = some (label, rest) := (splitOnceDot_some_iff _ _ _).mpr ⟨g1, g2⟩
  have hu : nsec3Usable (nsec3Params p need.name search []) n = some (start, e.2.2) := by
    unfold nsec3Usable
    rw [if_neg (by simp [hd.flags]), if_neg (by simp [hd.algo]), h1]
    simp only [hs, g3, g4, g5]
    simp
  unfold nsec3Proves
  rw [hu, h2]
  simp only [Bool.or_eq_true, Bool.and_eq_true, beq_iff_eq, bne_iff_ne, Bool.not_eq_true']
  rcases g6 with ⟨a, b⟩ | ⟨a, b⟩
  · exact Or.inl ⟨a, b⟩
  · refine Or.inr ⟨a, ?_⟩
    rw [cmpBytes_swap', b]; rfl

theorem clean_of_inOrder (h : InOrder (codeCheck p) p inp) : Clean dbg p inp := by
  intro z hz
  obtain ⟨h1, h2⟩ := h z hz
  refine ⟨h1, fun s hs => ?_⟩
  obtain ⟨a, b⟩ := h2 s hs
  refine ⟨(endsWith_iff _ _).mpr a, ?_⟩
  rcases b with b | ⟨b, c, d⟩
  · exact Or.inl b
  · refine Or.inr ⟨b, c, (mem_sigsBy.mp hs).2.2, fun e1 e2 => ?_⟩
    obtain ⟨d1, d2⟩ := d e1 e2
    have hlt := s.name.labels.toNat_lt
    have hs1 : (s.labels + 1).toNat = s.labels.toNat + 1 := by
      rw [UInt8.toNat_add]
      change (s.labels.toNat + 1) % 256 = _
      omega
    refine ⟨d1, fun _ e => ?_, UInt8.le_iff_toNat_le.mpr (by omega)⟩
    rw [e] at d2
    have : (255 : UInt8).toNat = 255 := rfl
    omega

theorem exists_length_bound (inp : List RR) : ∃ L, ∀ s, RR.rrsig s ∈ inp → s.name.bytes.length ≤ L := by
  induction inp with
  | nil => exact ⟨0, by simp⟩
  | cons r rs ih =>
    obtain ⟨L, hL⟩ := ih
    refine ⟨L + r.name.bytes.length, fun s hs => ?_⟩
    rcases List.mem_cons.mp hs with h | h
    · rw [← h]; simp [RR.name]
    · have := hL s h; omega

/-- Sufficient conditions for acceptance. -/
theorem verifyRRStream_accepts' (hc : Clean dbg p inp) (h2 : RootDelegates (codeCheck p) inp)
    (h3 : ¬ SelfDelegation (codeCheck p) p inp) (h4 : ∃ r, Authenticated (codeCheck p) p inp r ∧ r.ty ≠ 43)
    (h5 : CommonWindow (codeCheck p) p inp) (h6 : WildcardsDenied (codeCheck p) p inp) :
    ∃ fuel v, verifyRRStream dbg p fuel inp = some (.ok v) := by
  obtain ⟨L, hL⟩ := exists_length_bound inp
  have hno : ∀ z, Reached (codeCheck p) p inp z → ∀ s, SignedBy (codeCheck p) inp z s → s.ty = dsType → s.name ≠ z :=
    fun z hz s hs ht hn => h3 ⟨z, hz, s, hs, ht, hn⟩
  have hterm := verifyRRStream_terminates (dbg := dbg) hL h2 hno _ (Nat.le_refl _)
  refine ⟨(inp.length + 1) ^ L, ?_⟩
  unfold verifyRRStream at hterm ⊢
  rcases zoneLoop_clean hc ((inp.length + 1) ^ L) [dot] VState.init (by simp [VState.init]) with hz | ⟨st, hz⟩
  · rw [hz] at hterm; simp at hterm
  rw [hz]
  simp only [Option.some.injEq]
  have hF := zoneLoop_final hz
  have hauth : ∀ r, r ∈ st.res ↔ Authenticated (codeCheck p) p inp r ∧ r.ty ≠ 43 := by
    intro r
    rw [hF.eff.res]
    constructor
    · rintro ⟨sig, ⟨z, hz, hs⟩, hd, hr⟩
      obtain ⟨hr1, hr2, hr3⟩ := mem_rrset.mp hr
      obtain ⟨ksig, hk⟩ := hF.keys z hz
      exact ⟨⟨z, ksig, sig, hz, hk, hs, hr1, hr2, hr3⟩, by rw [hr3]; exact hd⟩
    · rintro ⟨⟨z, ksig, sig, hz, hk, hs, hr1, hr2, hr3⟩, hd⟩
      exact ⟨sig, ⟨z, hz, hs⟩, by rw [← hr3]; exact hd, mem_rrset.mpr ⟨hr1, hr2, hr3⟩⟩
  unfold finishVerify
  obtain ⟨r, hr⟩ := h4
  have hne : st.res ≠ [] := List.ne_nil_of_mem ((hauth r).mpr hr)
  rw [if_neg (by simpa using hne)]
  have hused : ∀ s, ((∃ z, Reached (codeCheck p) p inp z ∧ ZoneKeysOk (codeCheck p) p inp z s) ∨
      (∃ z, Reached (codeCheck p) p inp z ∧ SignedBy (codeCheck p) inp z s)) → Used (codeCheck p) p inp s := by
    rintro s (⟨z, a, b⟩ | ⟨z, a, b⟩)
    · exact ⟨z, a, Or.inl b⟩
    · exact ⟨z, a, Or.inr b⟩
  have hroot : ∃ s, Used (codeCheck p) p inp s := by
    obtain ⟨ksig, hk⟩ := hF.keys rootName .root
    exact ⟨ksig, rootName, .root, Or.inl hk⟩
  have hb : ∀ t : UInt32, 0 < resolveTime t ∧ resolveTime t < 18446744073709551615 := by
    intro t
    have := t.toNat_lt
    unfold resolveTime
    split <;> omega
  have hwin : st.latestInception < st.earliestExpiry := by
    rcases hF.eff.inceptionEq with e1 | ⟨s, hs, e1⟩ <;> rcases hF.eff.expiryEq with e2 | ⟨t, ht, e2⟩
    · rw [e1, e2]; decide
    · rw [e1, ← e2]; exact (hb _).1
    · rw [e2, ← e1]; exact (hb _).2
    · rw [← e1, ← e2]; exact h5 s t (hused s hs) (hused t ht)
  rw [if_neg (by omega)]
  have hloop : proofLoop p st.res (p.sortNeeds st.needs).reverse.length (p.sortNeeds st.needs).reverse = .ok () := by
    apply proofLoop_complete
    intro need hneed
    rw [List.mem_reverse, (p.sortNeeds_perm st.needs).mem_iff, hF.eff.needs] at hneed
    obtain ⟨sig, ⟨z, hz, hs⟩, hn1, hn2, hn3, hn4, hn5⟩ := hneed
    have hzone : need.zone = z := by rw [hn3]; exact (mem_sigsBy.mp hs.1).2.1
    rw [hzone]
    rcases h6 z sig hz hs hn1 hn2 need.name hn5 with ⟨n, a, b, c⟩ | ⟨n, a, b, c, d⟩
    · refine Or.inl ⟨n, mem_nsecSearch.mpr ⟨(hauth _).mpr ⟨a, by simp only [RR.ty]; decide⟩, (endsWith_iff _ _).mpr b⟩, ?_⟩
      rw [nsecProves_iff, hn4]; exact c
    · have hm : n ∈ nsec3Search st.res z :=
        mem_nsec3Search.mpr ⟨(hauth _).mpr ⟨a, by simp only [RR.ty]; decide⟩, (endsWith_iff _ _).mpr b⟩
      refine Or.inr ⟨n, hm, nsec3Proves_of_denies hm (by rw [hn4]; exact c) ?_⟩
      obtain ⟨a, b, d⟩ := d
      refine ⟨a, b, fun m hm => ?_⟩
      obtain ⟨q1, q2⟩ := mem_nsec3Search.mp hm
      exact d m ⟨((hauth _).mp q1).1, (endsWith_iff _ _).mp q2⟩
  simp only
  rw [hloop]
  exact ⟨_, rfl⟩

theorem verifyRRStream_accepts (h1 : InOrder (codeCheck p) p inp) (h2 : RootDelegates (codeCheck p) inp)
    (h3 : ¬ SelfDelegation (codeCheck p) p inp) (h4 : ∃ r, Authenticated (codeCheck p) p inp r ∧ r.ty ≠ 43)
    (h5 : CommonWindow (codeCheck p) p inp) (h6 : WildcardsDenied (codeCheck p) p inp) :
    ∃ fuel v, verifyRRStream dbg p fuel inp = some (.ok v) :=
  verifyRRStream_accepts' (clean_of_inOrder h1) h2 h3 h4 h5 h6

end Dnssec
