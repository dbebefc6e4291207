import Verif.Spec.Rollover
import Verif.Proofs.Decide
import Verif.Proofs.Permute
import Verif.Props.Termination
import Verif.Props.Validation

/-! # C103: key rollovers -/

namespace Dnssec.Props

open Dnssec Dnssec.Spec

variable {dbg : Bool} {p : Platform} {fuel : Nat} {inp : List RR} {v : Verified} {z : Name} {st : Stage}

private theorem seen_cases {l : List Stage} {P : Stage → Prop} (h : ∀ i, ∀ a b, l[i]? = some a → l[i + 1]? = some b →
    ∀ d ∈ [a, b], ∀ k ∈ [a, b], ∀ s ∈ [a, b], P ⟨k.keys, d.vouched, k.keySigners, s.signers⟩) : Seen l st → P st := by
  rintro ⟨before, a, b, after, rfl, d, hd, k, hk, s, hs, rfl⟩
  exact h before.length a b (by simp) (by simp) d hd k hk s hs

/-- The rollovers are correct (a check of the specification, not of the code): whatever is seen of them can be validated as RFC 4035 says. -/
theorem C103_rollovers_validate {k z k' z' : DnsKey}
    (h : Seen (prePublish k z z') st ∨ Seen (doubleSignature k z z') st ∨ Seen (doubleKsk k k' z) st ∨ Seen (doubleDs k k' z) st ∨
      Seen (algorithmRollover k z k' z') st) : st.Validates := by
  rcases h with h | h | h | h | h
  all_goals
    revert h
    refine seen_cases fun i a b h1 h2 d hd k hk s hs => ?_
    simp only [List.mem_cons, List.not_mem_nil, or_false] at hd hk hs
    match i with
    | 0 | 1 | 2 | 3 | 4 =>
      simp only [prePublish, doubleSignature, doubleKsk, doubleDs, algorithmRollover, List.getElem?_cons_zero, List.getElem?_cons_succ,
        List.getElem?_nil, Option.some.injEq, reduceCtorEq] at h1 h2
      first
        | done
        | subst h1 h2
          rcases hd with rfl | rfl <;> rcases hk with rfl | rfl <;> rcases hs with rfl | rfl <;> simp [Stage.Validates]
    | i + 5 => simp [prePublish, doubleSignature, doubleKsk, doubleDs, algorithmRollover] at h2

private theorem eligible_of_madeBy {s : RRSig} {k : DnsKey} {r : List RR} (h : MadeBy (codeCheck p) s k r) : Eligible s k := by
  obtain ⟨_, k', msg, ⟨pre, post, e, he, _⟩, _⟩ := (verifyRrsig_ok_iff p s [k] r).mp h
  cases pre with
  | nil => simp at e; rw [e.1]; exact he
  | cons x xs => simp at e

private theorem good_of_madeBy {s : RRSig} {k : DnsKey} {r : List RR} {keys : List DnsKey} (h : MadeBy (codeCheck p) s k r) (hk : k ∈ keys)
    (hu : ∀ k' ∈ keys, keyTag (rdata (.dnskey k)) = keyTag (rdata (.dnskey k')) → k = k') : (codeCheck p).good s keys r := by
  have hel := eligible_of_madeBy h
  obtain ⟨h1, k', msg, ⟨pre, post, e, he, _⟩, h2⟩ := (verifyRrsig_ok_iff p s [k] r).mp h
  have hkk : k' = k := by
    cases pre with
    | nil => simp at e; exact e.1.symm
    | cons x xs => simp at e
  subst hkk
  refine (verifyRrsig_ok_iff p s keys r).mpr ⟨h1, k', msg, ?_, h2⟩
  clear h2 e
  induction keys with
  | nil => cases hk
  | cons x xs ih =>
    by_cases hx : Eligible s x
    · have : k' = x := hu x (List.mem_cons_self ..) (hel.tag.symm.trans hx.tag)
      subst this
      exact ⟨[], xs, rfl, hel, by simp⟩
    · have hk' : k' ∈ xs := by
        rcases List.mem_cons.mp hk with rfl | h
        · exact absurd hel hx
        · exact h
      obtain ⟨a, b, c, d, e⟩ := ih hk' (fun y hy => hu y (List.mem_cons_of_mem _ hy))
      refine ⟨x :: a, b, by rw [c]; rfl, d, ?_⟩
      intro y hy
      rcases List.mem_cons.mp hy with rfl | hy
      · exact hx
      · exact e y hy

/-- **C103 (partial).** If every key that signs the key set has a DS record and is in it, as is every key that signs anything else, then all
signatures are verified. Missing: other stages; see below. -/
theorem C103_stage_partial (h : AtStage (codeCheck p) p inp z st) (ht : Tidy inp z) (hne : st.keySigners ≠ [])
    (hk : ∀ k ∈ st.keySigners, k ∈ st.vouched ∧ k ∈ st.keys) (hs : ∀ k ∈ st.signers, k ∈ st.keys) :
    ZoneInOrder (codeCheck p) p inp z ∧ ∀ s ∈ sigsBy inp z, SignedBy (codeCheck p) inp z s := by
  have htag : ∀ k ∈ st.keys ++ st.keySigners ++ st.signers, ∀ k' ∈ keysAt inp z,
      keyTag (rdata (.dnskey k)) = keyTag (rdata (.dnskey k')) → k = k' := by
    intro k hk k' hk'
    exact h.tags k hk k' (by simp [(h.keys k').mp hk'])
  have hsigned : ∀ s ∈ sigsBy inp z, SignedBy (codeCheck p) inp z s := by
    intro s hs'
    obtain ⟨k, hk1, hk2⟩ := h.sigs s hs'
    exact ⟨hs', good_of_madeBy hk2 ((h.keys k).mpr (hs k hk1)) (htag k (by simp [hk1]))⟩
  refine ⟨⟨?_, ?_⟩, hsigned⟩
  · obtain ⟨k0, hk0⟩ := List.exists_mem_of_ne_nil _ hne
    obtain ⟨s0, hs0, _⟩ := h.keySigners k0 hk0
    cases hl : keySigs inp z with
    | nil => rw [hl] at hs0; cases hs0
    | cons s rest =>
      obtain ⟨k, hk1, hk2⟩ := h.onKeys s (by rw [hl]; exact List.mem_cons_self ..)
      obtain ⟨hv, hkk⟩ := hk k hk1
      have hanch := (h.vouched k hkk).mpr hv
      refine ⟨s, ?_, [], rest, hl, by simp, ?_⟩
      · obtain ⟨d, hd, hd2, _⟩ := hanch
        refine ⟨d, hd, ?_⟩
        rcases hd2.2.2 with e | e
        · exact Or.inl e.1
        · exact Or.inr (Or.inl e.1)
      · refine good_of_madeBy hk2 (List.mem_filter.mpr ⟨(h.keys k).mpr hkk, by simpa using hanch⟩) ?_
        intro k' hk'
        exact htag k (by simp [hkk]) k' (List.mem_filter.mp hk').1
  · intro s hs'
    obtain ⟨a, b, c⟩ := ht s hs'
    exact ⟨a, Or.inr ⟨hsigned s hs', b, c⟩⟩

private def Plain (st : Stage) : Prop :=
  st.keySigners ≠ [] ∧ (∀ k ∈ st.keySigners, k ∈ st.vouched ∧ k ∈ st.keys) ∧ ∀ k ∈ st.signers, k ∈ st.keys

/-- **C103.** Throughout the Pre-Publish rollover of zone signing keys and the Double-DS rollover of key signing keys, whatever comes from
caches, the zone's keys are established and all its signatures verified. -/
theorem C103_pre_publish_double_ds {k z₁ k' z' : DnsKey} (hst : Seen (prePublish k z₁ z') st ∨ Seen (doubleDs k k' z₁) st)
    (h : AtStage (codeCheck p) p inp z st) (ht : Tidy inp z) :
    ZoneInOrder (codeCheck p) p inp z ∧ ∀ s ∈ sigsBy inp z, SignedBy (codeCheck p) inp z s := by
  have key : Plain st := by
    clear h ht
    rcases hst with h | h
    all_goals
      revert h
      refine seen_cases fun i a b h1 h2 d hd k hk s hs => ?_
      simp only [List.mem_cons, List.not_mem_nil, or_false] at hd hk hs
      match i with
      | 0 | 1 | 2 =>
        simp only [prePublish, doubleDs, List.getElem?_cons_zero, List.getElem?_cons_succ, Option.some.injEq] at h1 h2
        first
          | done
          | subst h1 h2
            rcases hd with rfl | rfl <;> rcases hk with rfl | rfl <;> rcases hs with rfl | rfl <;> simp [Plain]
      | i + 3 => simp [prePublish, doubleDs] at h2
  exact C103_stage_partial h ht key.1 key.2.1 key.2.2

/-- **C103, whole proofs.** If all zones on the way are in one of these rollovers (or in none), and a proof is otherwise as C56 says, it is
accepted. -/
theorem C103_accepted_partial
    (hz : ∀ z, Reached (codeCheck p) p inp z → Tidy inp z ∧ ∃ st k k' z₁ z', AtStage (codeCheck p) p inp z st ∧
      (Seen (prePublish k z₁ z') st ∨ Seen (doubleDs k k' z₁) st))
    (h2 : RootDelegates (codeCheck p) inp) (h3 : ¬ SelfDelegation (codeCheck p) p inp)
    (h4 : ∃ r, Authenticated (codeCheck p) p inp r ∧ r.ty ≠ 43) (h5 : CommonWindow (codeCheck p) p inp)
    (h6 : WildcardsDenied (codeCheck p) p inp) : ∃ fuel v, verifyRRStream dbg p fuel inp = some (.ok v) := by
  refine C56_complete ?_ h2 h3 h4 h5 h6
  intro z hr
  obtain ⟨ht, st, k, k', z₁, z', ha, hst⟩ := hz z hr
  exact (C103_pre_publish_double_ds hst ha ht).1

/-- **C103 is false** at every stage at which a key signs that is not in the key set: every proof that gets to this zone and contains anything
else signed by it is rejected, although there is another good signature. -/
theorem C103_fails_unpublished_signer (h : AtStage (codeCheck p) p inp z st) (hz : Reached (codeCheck p) p inp z) {k : DnsKey}
    (hk : k ∈ st.signers) (hnot : k ∉ st.keys) {s : RRSig} (hs : s ∈ sigsBy inp z) : verifyRRStream dbg p fuel inp ≠ some (.ok v) := by
  obtain ⟨t, ht, hn, hty, hm⟩ := h.signers s hs k hk
  have hel := eligible_of_madeBy hm
  have hno : ∀ k' ∈ keysAt inp z, ¬ Eligible t k' := by
    intro k' hk' he
    have h' := (h.keys k').mp hk'
    have := h.tags k (by simp [hk]) k' (by simp [h']) (hel.tag.symm.trans he.tag)
    exact hnot (this ▸ h')
  obtain ⟨a, b, c⟩ := mem_sigsBy.mp ht
  refine C26_bad_signature z hz t a b c ?_ ?_
  · intro hg
    obtain ⟨_, k', _, ⟨pre, post, e, he, _⟩, _⟩ := (verifyRrsig_ok_iff p t _ _).mp hg
    exact hno k' (by rw [e]; simp) he
  · intro hg
    obtain ⟨_, ⟨k', hk', he⟩, _⟩ := (verifyRrsig_unsupported_iff p t _ _).mp hg
    exact hno k' hk' he

/-- **C103 is false** for Double-Signature rollovers of zone signing keys, while the old key set is in a cache and the new signatures are not (or
the other way round at the end), and for algorithm rollovers, at the second and fifth of six stages even without a cache. -/
theorem C103_fails_double_signature {k z₁ k' z' : DnsKey} (hz' : z' ≠ k ∧ z' ≠ z₁) (hz₁ : z₁ ≠ k' ∧ z₁ ≠ k) :
    (∃ st, Seen (doubleSignature k z₁ z') st ∧ ∃ s ∈ st.signers, s ∉ st.keys) ∧
    (∃ st ∈ algorithmRollover k z₁ k' z', ∃ s ∈ st.signers, s ∉ st.keys) ∧
    ∃ st ∈ (algorithmRollover k z₁ k' z').drop 4, ∃ s ∈ st.signers, s ∉ st.keys := by
  refine ⟨⟨⟨[k, z₁], [k], [k], [z₁, z']⟩, ⟨[], _, _, [⟨[k, z'], [k], [k], [z']⟩], rfl, ⟨[k, z₁], [k], [k], [z₁]⟩, by simp, ⟨[k, z₁], [k], [k], [z₁]⟩, by simp,
    ⟨[k, z₁, z'], [k], [k], [z₁, z']⟩, by simp, rfl⟩, z', by simp, by simp [hz']⟩,
    ⟨⟨[k, z₁], [k], [k], [z₁, z']⟩, by simp [algorithmRollover], z', by simp, by simp [hz']⟩,
    ⟨⟨[k', z'], [k'], [k'], [z₁, z']⟩, by simp [algorithmRollover], z₁, by simp, by simp [hz₁, Ne.symm hz'.2]⟩⟩

/-- **C103, exact, for the key set.** It is established if and only if the first signature over it was made with a key that has a DS record. -/
theorem C103_first_signature_iff (h : AtStage (codeCheck p) p inp z st) (hsub : ∀ k ∈ st.keySigners, k ∈ st.keys) :
    (∃ ksig, ZoneKeysOk (codeCheck p) p inp z ksig) ↔
      ∃ s rest k, keySigs inp z = s :: rest ∧ k ∈ st.vouched ∧ k ∈ st.keys ∧ MadeBy (codeCheck p) s k ((keysAt inp z).map .dnskey) := by
  have htag : ∀ k ∈ st.keys, ∀ k' ∈ keysAt inp z, keyTag (rdata (.dnskey k)) = keyTag (rdata (.dnskey k')) → k = k' := by
    intro k hk k' hk'
    exact h.tags k (by simp [hk]) k' (by simp [(h.keys k').mp hk'])
  constructor
  · rintro ⟨ksig, _, before, after, e, h1, h2⟩
    cases hl : keySigs inp z with
    | nil => rw [hl] at e; simp at e
    | cons s rest =>
      obtain ⟨k, hk1, hk2⟩ := h.onKeys s (by rw [hl]; exact List.mem_cons_self ..)
      have hk := hsub k hk1
      have hel := eligible_of_madeBy hk2
      have hex : ∃ k' ∈ anchoredKeys p (anchors inp z) (keysAt inp z), Eligible s k' := by
        cases before with
        | nil =>
          rw [hl] at e
          simp only [List.nil_append, List.cons.injEq] at e
          obtain ⟨_, k', _, ⟨pre, post, e', he, _⟩, _⟩ := (verifyRrsig_ok_iff p ksig _ _).mp h2
          rw [← e.1] at he
          exact ⟨k', by rw [e']; simp, he⟩
        | cons t ts =>
          rw [hl] at e
          simp only [List.cons_append, List.cons.injEq] at e
          obtain ⟨_, h3, _⟩ := (verifyRrsig_unsupported_iff p t _ _).mp (h1 t (List.mem_cons_self ..))
          rw [← e.1] at h3
          exact h3
      obtain ⟨k', hk', he⟩ := hex
      obtain ⟨hk1', hk2'⟩ := List.mem_filter.mp hk'
      have hkk := htag k hk k' hk1' (hel.tag.symm.trans he.tag)
      subst hkk
      exact ⟨s, rest, k, rfl, (h.vouched k hk).mp (by simpa using hk2'), hk, hk2⟩
  · rintro ⟨s, rest, k, hl, hv, hk, hm⟩
    have hanch := (h.vouched k hk).mpr hv
    refine ⟨s, ?_, [], rest, hl, by simp, ?_⟩
    · obtain ⟨d, hd, hd2, _⟩ := hanch
      refine ⟨d, hd, ?_⟩
      rcases hd2.2.2 with e | e
      · exact Or.inl e.1
      · exact Or.inr (Or.inl e.1)
    · refine good_of_madeBy hm (List.mem_filter.mpr ⟨(h.keys k).mpr hk, by simpa using hanch⟩) ?_
      intro k' hk'
      exact htag k hk k' (List.mem_filter.mp hk').1

/-! ## Examples -/

/-- Three keys of `c.`: two key signing keys and a zone signing key. -/
def rK : DnsKey := ⟨⟨ascii "c."⟩, 257, 3, 8, [1, 3, 0x4A, 0x5A]⟩
def rK' : DnsKey := ⟨⟨ascii "c."⟩, 257, 3, 8, [1, 3, 0x4A, 0x5B]⟩
def rZ : DnsKey := ⟨⟨ascii "c."⟩, 256, 3, 8, [1, 3, 0x4A, 0x5D]⟩
def rZ' : DnsKey := ⟨⟨ascii "c."⟩, 256, 3, 8, [1, 3, 0x4A, 0x5E]⟩

/-- A signature by a key of `c.`. -/
def rSig (k : DnsKey) (n : String) (ty : UInt16) (labels : UInt8) : RR :=
  .rrsig ⟨⟨ascii n⟩, ty, 8, labels, 3600, 2000000000, 1000000000, k.computeKeyTag, ⟨ascii "c."⟩, [1]⟩

/-- A proof for the address of `a.c.`, where the key set and the address are signed by these keys. The DS record is for `rK`. -/
def rStream (keys keySigners signers : List DnsKey) : List RR :=
  wZone "." 0 ++ [wDs "c.", wSig "c." 43 1 "."] ++ keys.map .dnskey ++ keySigners.map (fun k => rSig k "c." 48 1) ++
    [wA "a.c."] ++ signers.map (fun k => rSig k "a.c." 1 2)

theorem atStage_of_check (h1 : keysAt inp z = st.keys) (h2 : ∀ k ∈ st.keys, Anchored p (anchors inp z) k ↔ k ∈ st.vouched)
    (h3 : ∀ s ∈ keySigs inp z, ∃ k ∈ st.keySigners, verifyRrsig p s [k] ((keysAt inp z).map .dnskey) = .ok ())
    (h4 : ∀ k ∈ st.keySigners, ∃ s ∈ keySigs inp z, verifyRrsig p s [k] ((keysAt inp z).map .dnskey) = .ok ())
    (h5 : ∀ s ∈ sigsBy inp z, ∃ k ∈ st.signers, verifyRrsig p s [k] (rrset inp s.name s.ty) = .ok ())
    (h6 : ∀ s ∈ sigsBy inp z, ∀ k ∈ st.signers, ∃ t ∈ sigsBy inp z, t.name = s.name ∧ t.ty = s.ty ∧
      verifyRrsig p t [k] (rrset inp s.name s.ty) = .ok ())
    (h7 : ∀ k ∈ st.keys ++ st.keySigners ++ st.signers, ∀ k' ∈ st.keys ++ st.keySigners ++ st.signers,
      keyTag (rdata (.dnskey k)) = keyTag (rdata (.dnskey k')) → k = k') : AtStage (codeCheck p) p inp z st :=
  ⟨fun k => by rw [h1], h2, h3, h4, h5, h6, h7⟩

/-- The second stage of a Pre-Publish rollover: in order, and accepted. -/
example : Seen (prePublish rK rZ rZ') ⟨[rK, rZ, rZ'], [rK], [rK], [rZ]⟩ ∧
    AtStage (codeCheck wPlatform) wPlatform (rStream [rK, rZ, rZ'] [rK] [rZ]) ⟨ascii "c."⟩ ⟨[rK, rZ, rZ'], [rK], [rK], [rZ]⟩ ∧
    Tidy (rStream [rK, rZ, rZ'] [rK] [rZ]) ⟨ascii "c."⟩ ∧
    verifyRRStream false wPlatform 5 (rStream [rK, rZ, rZ'] [rK] [rZ]) = some (.ok ⟨[wA "a.c."], 1000000000, 2000000000, 3600⟩) := by
  refine ⟨⟨[], _, _, _, rfl, _, List.mem_cons_self .., _, List.mem_cons_of_mem _ (List.mem_cons_self ..), _, List.mem_cons_self .., rfl⟩,
    atStage_of_check ?_ ?_ ?_ ?_ ?_ ?_ ?_, ?_, ?_⟩
  case refine_8 =>
    have : ∀ s ∈ sigsBy (rStream [rK, rZ, rZ'] [rK] [rZ]) ⟨ascii "c."⟩, endsWith s.name.bytes (ascii "c.") = true ∧ s.ty ≠ 46 ∧
        s.labels = s.name.labels := by decide +kernel
    intro s hs
    obtain ⟨a, b, c⟩ := this s hs
    exact ⟨(endsWith_iff _ _).mp a, b, fun _ hx => absurd c hx.1⟩
  all_goals decide +kernel

/-- The zones of this proof are as `C103_accepted_partial` asks; the root uses one key for everything. The other conditions hold because
the proof is accepted. -/
example (z : Name) (hz : Reached (codeCheck wPlatform) wPlatform (rStream [rK, rZ, rZ'] [rK] [rZ]) z) :
    Tidy (rStream [rK, rZ, rZ'] [rK] [rZ]) z ∧ ∃ st k k' z₁ z', AtStage (codeCheck wPlatform) wPlatform (rStream [rK, rZ, rZ'] [rK] [rZ]) z st ∧
      (Seen (prePublish k z₁ z') st ∨ Seen (doubleDs k k' z₁) st) := by
  have tidy : ∀ z, (∀ s ∈ sigsBy (rStream [rK, rZ, rZ'] [rK] [rZ]) z, endsWith s.name.bytes z.bytes = true ∧ s.ty ≠ 46 ∧
      s.labels = s.name.labels) → Tidy (rStream [rK, rZ, rZ'] [rK] [rZ]) z := by
    intro z h s hs
    obtain ⟨a, b, c⟩ := h s hs
    exact ⟨(endsWith_iff _ _).mp a, b, fun _ hx => absurd c hx.1⟩
  have hz' : z = rootName ∨ z = ⟨ascii "c."⟩ := by
    cases hz with
    | root => exact Or.inl rfl
    | delegated z ksig sig _ _ hs ht =>
      have : ∀ r ∈ rStream [rK, rZ, rZ'] [rK] [rZ], ∀ s, r = .rrsig s → s.ty = 43 → s.name = ⟨ascii "c."⟩ := by
        have h : ∀ r ∈ rStream [rK, rZ, rZ'] [rK] [rZ], (match r with | .rrsig s => s.ty = 43 → s.name = ⟨ascii "c."⟩ | _ => True) := by
          simp only [rStream, wZone, List.map_cons, List.map_nil, List.cons_append, List.nil_append, List.forall_mem_cons]
          simp [wKey, wSig, wSigWith, wDs, rSig, wA]
        intro r hr s e
        subst e
        exact h _ hr
      exact Or.inr (this _ (mem_sigsBy.mp hs.1).1 sig rfl ht)
  rcases hz' with rfl | rfl
  · let k : DnsKey := ⟨⟨ascii "."⟩, 257, 3, 8, [1, 3, 0x4A, 0x5A]⟩
    refine ⟨tidy _ (by decide +kernel), ⟨[k, k], [k], [k], [k]⟩, k, k, k, k, ⟨fun x => ?_, ?_, ?_, ?_, ?_, ?_, ?_⟩, Or.inl
      ⟨[], _, _, _, rfl, _, List.mem_cons_self .., _, List.mem_cons_self .., _, List.mem_cons_self .., rfl⟩⟩
    · rw [show keysAt (rStream [rK, rZ, rZ'] [rK] [rZ]) rootName = [k] by decide +kernel]
      simp
    all_goals
      simp only [MadeBy, codeCheck]
      decide +kernel
  · refine ⟨tidy _ (by decide +kernel), ⟨[rK, rZ, rZ'], [rK], [rK], [rZ]⟩, rK, rK, rZ, rZ', atStage_of_check ?_ ?_ ?_ ?_ ?_ ?_ ?_, Or.inl
      ⟨[], _, _, _, rfl, _, List.mem_cons_self .., _, List.mem_cons_of_mem _ (List.mem_cons_self ..), _, List.mem_cons_self .., rfl⟩⟩
    all_goals decide +kernel

/-- **C103 is false** for Double-KSK rollovers: at the second stage, with the DS record still for the old key, a proof is accepted or rejected
depending on which of the two signatures over the key set comes first. -/
theorem C103_fails_double_ksk (dbg : Bool) :
    (⟨[rK, rK', rZ], [rK], [rK, rK'], [rZ]⟩ : Stage) ∈ doubleKsk rK rK' rZ ∧
    AtStage (codeCheck wPlatform) wPlatform (rStream [rK, rK', rZ] [rK, rK'] [rZ]) ⟨ascii "c."⟩ ⟨[rK, rK', rZ], [rK], [rK, rK'], [rZ]⟩ ∧
    AtStage (codeCheck wPlatform) wPlatform (rStream [rK, rK', rZ] [rK', rK] [rZ]) ⟨ascii "c."⟩ ⟨[rK, rK', rZ], [rK], [rK, rK'], [rZ]⟩ ∧
    verifyRRStream dbg wPlatform 5 (rStream [rK, rK', rZ] [rK, rK'] [rZ]) = some (.ok ⟨[wA "a.c."], 1000000000, 2000000000, 3600⟩) ∧
    verifyRRStream dbg wPlatform 5 (rStream [rK, rK', rZ] [rK', rK] [rZ]) = some (.err .invalid) := by
  refine ⟨by simp [doubleKsk], atStage_of_check ?_ ?_ ?_ ?_ ?_ ?_ ?_, atStage_of_check ?_ ?_ ?_ ?_ ?_ ?_ ?_, ?_, ?_⟩
  case refine_15 => cases dbg <;> decide +kernel
  case refine_16 => cases dbg <;> decide +kernel
  all_goals decide +kernel

/-- The conditions of `C103_fails_unpublished_signer` hold during a Double-Signature rollover with the old key set in a cache. The same proof
without the new key's signature is accepted. -/
example : AtStage (codeCheck wPlatform) wPlatform (rStream [rK, rZ] [rK] [rZ, rZ']) ⟨ascii "c."⟩ ⟨[rK, rZ], [rK], [rK], [rZ, rZ']⟩ ∧
    (rZ' ≠ rK ∧ rZ' ≠ rZ ∧ rZ ≠ rK' ∧ rZ ≠ rK) ∧
    verifyRRStream false wPlatform 5 (rStream [rK, rZ] [rK] [rZ, rZ']) = some (.err .invalid) ∧
    verifyRRStream false wPlatform 5 (rStream [rK, rZ] [rK] [rZ]) = some (.ok ⟨[wA "a.c."], 1000000000, 2000000000, 3600⟩) := by
  refine ⟨atStage_of_check ?_ ?_ ?_ ?_ ?_ ?_ ?_, ?_, ?_, ?_⟩ <;> decide +kernel

end Dnssec.Props
