import Verif.Proofs.Sig
import Verif.Spec.Validation

/-! # The zone loop of `verify_rr_stream` -/

namespace Dnssec

open Spec

theorem Name.ext_iff' (a b : Name) : a.bytes = b.bytes ↔ a = b := by
  cases a; cases b; simp

/-! ### Selections from the input -/

theorem coveredRecords_eq (inp : List RR) (sig : RRSig) : coveredRecords inp sig = rrset inp sig.name sig.ty := by
  unfold coveredRecords rrset
  apply List.filter_congr
  intro r _
  rw [Bool.eq_iff_iff]
  simp

theorem zoneKeys_eq (inp : List RR) (z : Name) : zoneKeys inp z.bytes = keysAt inp z := by
  unfold zoneKeys dnskeys keysAt
  induction inp with
  | nil => rfl
  | cons r rs ih =>
    cases r <;> simp_all
    rename_i k
    by_cases h : k.name = z
    · simpa [h] using ih
    · have : ¬ k.name.bytes = z.bytes := fun h' => h ((Name.ext_iff' _ _).mp h')
      simpa [h, this] using ih

theorem dnskeyRrsigs_eq (inp : List RR) (z : Name) : dnskeyRrsigs inp z.bytes = keySigs inp z := by
  unfold dnskeyRrsigs rrsigs keySigs
  induction inp with
  | nil => rfl
  | cons r rs ih =>
    cases r <;> simp_all
    rename_i k
    by_cases h : k.name = z
    · by_cases h2 : k.ty = 48
      · simpa [h, h2, dnskeyType] using ih
      · simpa [h, h2, dnskeyType] using ih
    · have : ¬ k.name.bytes = z.bytes := fun h' => h ((Name.ext_iff' _ _).mp h')
      simpa [h, this] using ih

theorem zoneRrsigs_eq (inp : List RR) (z : Name) : zoneRrsigs inp z.bytes = sigsBy inp z := by
  unfold zoneRrsigs rrsigs sigsBy
  induction inp with
  | nil => rfl
  | cons r rs ih =>
    cases r <;> simp_all
    rename_i k
    by_cases h : k.keyName = z
    · by_cases h2 : k.ty = 48
      · simpa [h, h2, dnskeyType] using ih
      · simpa [h, h2, dnskeyType] using ih
    · have : ¬ k.keyName.bytes = z.bytes := fun h' => h ((Name.ext_iff' _ _).mp h')
      simpa [h, this] using ih

theorem dsSet_eq (inp : List RR) (sig : RRSig) (h : sig.ty = dsType) : dsSet inp sig = dsAt inp sig.name := by
  unfold dsSet
  rw [coveredRecords_eq, h]
  unfold rrset dsAt
  induction inp with
  | nil => rfl
  | cons r rs ih =>
    rw [List.filter_cons]
    cases r with
    | ds d =>
      by_cases hn : d.name = sig.name
      · simp_all [RR.name, RR.ty]
      · simp_all [RR.name, RR.ty]
    | _ => split <;> simp_all

theorem mem_rrset {inp : List RR} {n : Name} {ty : UInt16} {r : RR} :
    r ∈ rrset inp n ty ↔ r ∈ inp ∧ r.name = n ∧ r.ty = ty := by
  unfold rrset; simp

theorem mem_sigsBy {inp : List RR} {z : Name} {s : RRSig} : s ∈ sigsBy inp z ↔ RR.rrsig s ∈ inp ∧ s.keyName = z ∧ s.ty ≠ 48 := by
  unfold sigsBy
  rw [List.mem_filterMap]
  constructor
  · rintro ⟨r, hr, h⟩
    cases r with
    | rrsig t =>
      simp only at h
      split at h
      · rename_i h1
        simp only [Option.some.injEq] at h; subst h; exact ⟨hr, h1⟩
      · simp at h
    | _ => simp at h
  · rintro ⟨h, h1, h2⟩
    exact ⟨_, h, by simp [h1, h2]⟩

theorem mem_keySigs {inp : List RR} {z : Name} {s : RRSig} : s ∈ keySigs inp z ↔ RR.rrsig s ∈ inp ∧ s.name = z ∧ s.ty = 48 := by
  unfold keySigs
  rw [List.mem_filterMap]
  constructor
  · rintro ⟨r, hr, h⟩
    cases r with
    | rrsig t =>
      simp only at h
      split at h
      · rename_i h1
        simp only [Option.some.injEq] at h; subst h; exact ⟨hr, h1⟩
      · simp at h
    | _ => simp at h
  · rintro ⟨h, h1, h2⟩
    exact ⟨_, h, by simp [h1, h2]⟩

theorem mem_keysAt {inp : List RR} {z : Name} {k : DnsKey} : k ∈ keysAt inp z ↔ RR.dnskey k ∈ inp ∧ k.name = z := by
  unfold keysAt
  rw [List.mem_filterMap]
  constructor
  · rintro ⟨r, hr, h⟩
    cases r with
    | dnskey t =>
      simp only at h
      split at h
      · rename_i h1
        simp only [Option.some.injEq] at h; subst h; exact ⟨hr, h1⟩
      · simp at h
    | _ => simp at h
  · rintro ⟨h, h1⟩
    exact ⟨_, h, by simp [h1]⟩

theorem mem_dsAt {inp : List RR} {z : Name} {d : DS} : d ∈ dsAt inp z ↔ RR.ds d ∈ inp ∧ d.name = z := by
  unfold dsAt
  rw [List.mem_filterMap]
  constructor
  · rintro ⟨r, hr, h⟩
    cases r with
    | ds t =>
      simp only at h
      split at h
      · rename_i h1
        simp only [Option.some.injEq] at h; subst h; exact ⟨hr, h1⟩
      · simp at h
    | _ => simp at h
  · rintro ⟨h, h1⟩
    exact ⟨_, h, by simp [h1]⟩

/-! ### Key sets -/

theorem dsHashInput_eq (k : DnsKey) : dsHashInput k = digestInput k := by
  unfold dsHashInput digestInput; rw [← writeName_eq_nameWire]; simp [rdata, be16]

theorem trustSha1_iff (dses : List DS) : trustSha1 dses = true ↔ ∀ d ∈ dses, d.digestType ≠ 2 ∧ d.digestType ≠ 4 := by
  unfold trustSha1; simp

theorem dsMatches_iff (p : Platform) (dses : List DS) (k : DnsKey) (d : DS) :
    dsMatches p dses k d = true ↔
      Vouches p d k ∧ (d.digestType = 1 → ∀ d' ∈ dses, d'.digestType ≠ 2 ∧ d'.digestType ≠ 4) := by
  unfold dsMatches Vouches
  rw [← trustSha1_iff, dsHashInput_eq]
  simp only [Bool.and_eq_true, beq_iff_eq]
  have e1 : (k.computeKeyTag = d.keyTag) = (d.keyTag.toNat = keyTag (rdata (.dnskey k))) := by
    rw [← UInt16.toNat_inj, keyTag_eq]; exact propext eq_comm
  rw [e1]
  by_cases h1 : d.digestType = 1
  · by_cases ht : trustSha1 dses = true
    · simp [h1, ht, and_assoc]
    · simp [h1, ht]
  · by_cases h2 : d.digestType = 2
    · simp [h2, and_assoc]
    · simp [h1, h2]

theorem validatedKeys_eq (p : Platform) (dses : List DS) (keys : List DnsKey) :
    validatedKeys p dses keys = anchoredKeys p dses keys := by
  unfold validatedKeys anchoredKeys
  apply List.filter_congr
  intro k _
  rw [Bool.eq_iff_iff, List.any_eq_true, decide_eq_true_iff]
  unfold Anchored
  simp only [dsMatches_iff]

theorem dnskeySigLoop_cases (p : Platform) (validated records : List DnsKey) : ∀ (sigs : List RRSig) (b : Bool),
    dnskeySigLoop p validated records sigs b ≠ .panic ∧
    (∀ sig, dnskeySigLoop p validated records sigs b = .ok sig ↔
      ∃ before after, sigs = before ++ sig :: after ∧
        (∀ s ∈ before, verifyRrsig p s validated (records.map .dnskey) = .err .unsupported) ∧
        verifyRrsig p sig validated (records.map .dnskey) = .ok ()) ∧
    (dnskeySigLoop p validated records sigs b = .err .unsupported ↔
      (b = true ∨ sigs ≠ []) ∧ ∀ s ∈ sigs, verifyRrsig p s validated (records.map .dnskey) = .err .unsupported)
  | [], b => by
    rw [dnskeySigLoop]
    refine ⟨by simp, by simp, ?_⟩
    cases b <;> simp
  | s :: sigs, b => by
    rw [dnskeySigLoop]
    obtain ⟨ih1, ih2, ih3⟩ := dnskeySigLoop_cases p validated records sigs true
    cases h : verifyRrsig p s validated (records.map .dnskey) with
    | panic => exact absurd h (verifyRrsig_no_panic _ _ _ _)
    | ok u =>
      cases u
      refine ⟨by simp, ?_, by simp [h]⟩
      intro sig
      simp only [Res.ok.injEq]
      constructor
      · rintro rfl; exact ⟨[], sigs, rfl, by simp, h⟩
      · rintro ⟨before, after, h1, h2, h3⟩
        cases before with
        | nil => exact (List.cons.inj h1).1
        | cons b bs =>
          obtain ⟨rfl, -⟩ := List.cons.inj h1
          have := h2 s (by simp)
          rw [h] at this; simp at this
    | err e =>
      cases e with
      | unsupported =>
        refine ⟨ih1, ?_, ?_⟩
        · intro sig
          simp only [ih2 sig]
          constructor
          · rintro ⟨before, after, rfl, h2, h3⟩
            refine ⟨s :: before, after, rfl, ?_, h3⟩
            intro x hx
            rcases List.mem_cons.mp hx with rfl | hx
            · exact h
            · exact h2 x hx
          · rintro ⟨before, after, h1, h2, h3⟩
            cases before with
            | nil =>
              obtain ⟨rfl, -⟩ := List.cons.inj h1
              rw [h] at h3; simp at h3
            | cons b bs =>
              obtain ⟨rfl, h4⟩ := List.cons.inj h1
              exact ⟨bs, after, h4, fun x hx => h2 x (by simp [hx]), h3⟩
        · simp only [ih3]
          simp [h]
      | invalid =>
        refine ⟨by simp, ?_, by simp [h]⟩
        intro sig
        simp only [reduceCtorEq, false_iff]
        rintro ⟨before, after, h1, h2, h3⟩
        cases before with
        | nil =>
          obtain ⟨rfl, -⟩ := List.cons.inj h1
          rw [h] at h3; simp at h3
        | cons b bs =>
          obtain ⟨rfl, h4⟩ := List.cons.inj h1
          have := h2 s (by simp)
          rw [h] at this; simp at this

theorem knownDigest_iff (dses : List DS) :
    dses.any (fun ds => ds.digestType == 1 || ds.digestType == 2 || ds.digestType == 4) = true ↔
      ∃ d ∈ dses, d.digestType = 1 ∨ d.digestType = 2 ∨ d.digestType = 4 := by
  simp [or_assoc]

theorem verifyDnskeys_ok_iff (p : Platform) (sigs : List RRSig) (dses : List DS) (records : List DnsKey) (sig : RRSig) :
    verifyDnskeys p sigs dses records = .ok sig ↔ Establishes (codeCheck p) p sigs dses records sig := by
  unfold verifyDnskeys Establishes codeCheck
  rw [← knownDigest_iff]
  by_cases he : dses.isEmpty = true
  · rw [if_pos he, List.isEmpty_iff.mp he]; simp
  · rw [if_neg he]
    by_cases hk : dses.any (fun ds => ds.digestType == 1 || ds.digestType == 2 || ds.digestType == 4) = true
    · rw [if_neg (by simp [hk]), (dnskeySigLoop_cases p _ records sigs false).2.1 sig, validatedKeys_eq]
      simp only [hk, true_and]
    · rw [if_pos (by simpa using hk)]
      simp only [hk, reduceCtorEq, false_and]

theorem verifyDnskeys_no_panic (p : Platform) (sigs : List RRSig) (dses : List DS) (records : List DnsKey) :
    verifyDnskeys p sigs dses records ≠ .panic := by
  unfold verifyDnskeys
  split
  · simp
  · split
    · simp
    · exact (dnskeySigLoop_cases p _ records sigs false).1

/-! ### Effects of the signatures -/

/-- Does `sig`, once verified, lead to an error? -/
def Acceptable (dbg : Bool) (sig : RRSig) : Prop :=
  sig.ty ≠ rrsigType ∧ sig.ty ≠ dnskeyType ∧
  (sig.ty ≠ dsType → Expanded sig → sig.ty ≠ nsec3Type ∧ (dbg = true → sig.labels ≠ 255) ∧ sig.labels + 1 ≤ sig.name.labels)

/-- The denial needed for a wildcard expansion. -/
def needOf (sig : RRSig) (n : Need) : Prop :=
  sig.ty ≠ dsType ∧ Expanded sig ∧ n.zone = sig.keyName ∧ n.ty = sig.ty ∧
  sig.name.trailingNLabels (sig.labels + 1) = some n.name

theorem splitnDot_ne_nil (k : Nat) (s : Bytes) : splitnDot (k + 1) s ≠ [] := by
  cases k with
  | zero => simp [splitnDot]
  | succ k => rw [splitnDot]; split <;> simp

theorem trailingNLabels_isSome (n : Name) (k : UInt8) : (n.trailingNLabels k).isSome ↔ k ≤ n.labels := by
  unfold Name.trailingNLabels
  simp only []
  split
  · rename_i h
    simp only [Option.isSome_none, Bool.false_eq_true, false_iff]
    exact UInt8.not_le.mpr h
  · rename_i h
    have h' : k ≤ n.labels := UInt8.not_lt.mp h
    simp only [h', iff_true]
    split
    · rfl
    · split
      · rfl
      · rw [List.getLast?_eq_some_getLast (splitnDot_ne_nil (n.labels.toNat - k.toNat) n.bytes)]
        rfl

theorem pushAll_mem (rs : List RR) : ∀ (res : List RR) (r : RR), r ∈ pushAll res rs ↔ r ∈ res ∨ r ∈ rs := by
  induction rs with
  | nil => intro res r; simp [pushAll]
  | cons x rs ih =>
    intro res r
    rw [pushAll, ih]
    split
    · rename_i h
      constructor
      · rintro (h1 | h1)
        · exact Or.inl h1
        · exact Or.inr (by simp [h1])
      · rintro (h1 | h1)
        · exact Or.inl h1
        · rcases List.mem_cons.mp h1 with rfl | h1
          · exact Or.inl h
          · exact Or.inr h1
    · simp only [List.mem_append, List.mem_cons, List.not_mem_nil, or_false]
      exact or_assoc

theorem pushAll_nodup (rs : List RR) : ∀ (res : List RR), res.Nodup → (pushAll res rs).Nodup := by
  induction rs with
  | nil => intro res h; exact h
  | cons x rs ih =>
    intro res h
    rw [pushAll]
    apply ih
    split
    · exact h
    · rename_i hx
      rw [List.nodup_append]
      refine ⟨h, by simp, ?_⟩
      intro a ha b hb
      rw [List.mem_singleton] at hb
      rintro rfl
      exact hx (hb ▸ ha)

/-- The state is what the used signatures make it: `K` the key set signatures used, `Q` the others. -/
structure Eff (inp : List RR) (K Q : RRSig → Prop) (st : VState) : Prop where
  res : ∀ r, r ∈ st.res ↔ ∃ sig, Q sig ∧ sig.ty ≠ dsType ∧ r ∈ rrset inp sig.name sig.ty
  nodup : st.res.Nodup
  needs : ∀ n, n ∈ st.needs ↔ ∃ sig, Q sig ∧ needOf sig n
  inceptionGe : ∀ sig, K sig ∨ Q sig → resolveTime sig.inception ≤ st.latestInception
  inceptionEq : st.latestInception = 0 ∨ ∃ sig, (K sig ∨ Q sig) ∧ resolveTime sig.inception = st.latestInception
  expiryLe : ∀ sig, K sig ∨ Q sig → st.earliestExpiry ≤ resolveTime sig.expiration
  expiryEq : st.earliestExpiry = 18446744073709551615 ∨ ∃ sig, (K sig ∨ Q sig) ∧ resolveTime sig.expiration = st.earliestExpiry
  ttlLe : ∀ sig, K sig ∨ Q sig → st.minTtl ≤ sig.origTtl
  ttlEq : st.minTtl = 0xffffffff ∨ ∃ sig, (K sig ∨ Q sig) ∧ sig.origTtl = st.minTtl

theorem Eff.init (inp : List RR) : Eff inp (fun _ => False) (fun _ => False) VState.init := by
  refine ⟨?_, ?_, ?_, ?_, ?_, ?_, ?_, ?_, ?_⟩ <;> simp [VState.init]

theorem uint32_min_le_left (a b : UInt32) : min a b ≤ a := by
  rw [UInt32.le_iff_toNat_le]
  change (if a ≤ b then a else b).toNat ≤ a.toNat
  split
  · exact Nat.le_refl _
  · rename_i h; exact Nat.le_of_lt (UInt32.lt_iff_toNat_lt.mp (UInt32.not_le.mp h))

theorem uint32_min_le_right (a b : UInt32) : min a b ≤ b := by
  rw [UInt32.le_iff_toNat_le]
  change (if a ≤ b then a else b).toNat ≤ b.toNat
  split
  · rename_i h; exact UInt32.le_iff_toNat_le.mp h
  · exact Nat.le_refl _

theorem uint32_min_eq (a b : UInt32) : min a b = a ∨ min a b = b := by
  change (if a ≤ b then a else b) = a ∨ (if a ≤ b then a else b) = b
  split
  · exact Or.inl rfl
  · exact Or.inr rfl

/-- Noting the times of one more signature. -/
theorem Eff.noteK {inp : List RR} {K Q : RRSig → Prop} {st : VState} (h : Eff inp K Q st) (sig : RRSig) :
    Eff inp (fun s => K s ∨ s = sig) Q (st.note sig) := by
  obtain ⟨h1, h2, h3, h4, h5, h6, h7, h8, h9⟩ := h
  have lift : ∀ s, K s ∨ Q s → (K s ∨ s = sig) ∨ Q s := fun s hs => hs.elim (fun h => Or.inl (Or.inl h)) Or.inr
  have cases' : ∀ s, (K s ∨ s = sig) ∨ Q s → (K s ∨ Q s) ∨ s = sig := by
    rintro s ((h | h) | h)
    · exact Or.inl (Or.inl h)
    · exact Or.inr h
    · exact Or.inl (Or.inr h)
  refine ⟨h1, h2, h3, ?_, ?_, ?_, ?_, ?_, ?_⟩
  · intro s hs
    change _ ≤ max _ _
    rcases cases' s hs with hs | rfl
    · exact Nat.le_trans (h4 s hs) (Nat.le_max_left _ _)
    · exact Nat.le_max_right _ _
  · change max _ _ = 0 ∨ ∃ s, _ ∧ _ = max _ _
    rcases Nat.le_total st.latestInception (resolveTime sig.inception) with hle | hle
    · rw [Nat.max_eq_right hle]; exact Or.inr ⟨sig, Or.inl (Or.inr rfl), rfl⟩
    · rw [Nat.max_eq_left hle]
      rcases h5 with h5 | ⟨s, hs, e⟩
      · exact Or.inl h5
      · exact Or.inr ⟨s, lift s hs, e⟩
  · intro s hs
    change min _ _ ≤ _
    rcases cases' s hs with hs | rfl
    · exact Nat.le_trans (Nat.min_le_left _ _) (h6 s hs)
    · exact Nat.min_le_right _ _
  · change min _ _ = _ ∨ ∃ s, _ ∧ _ = min _ _
    rcases Nat.le_total st.earliestExpiry (resolveTime sig.expiration) with hle | hle
    · rw [Nat.min_eq_left hle]
      rcases h7 with h7 | ⟨s, hs, e⟩
      · exact Or.inl h7
      · exact Or.inr ⟨s, lift s hs, e⟩
    · rw [Nat.min_eq_right hle]; exact Or.inr ⟨sig, Or.inl (Or.inr rfl), rfl⟩
  · intro s hs
    change min _ _ ≤ _
    rcases cases' s hs with hs | rfl
    · exact UInt32.le_trans (uint32_min_le_left _ _) (h8 s hs)
    · exact uint32_min_le_right _ _
  · change min _ _ = _ ∨ ∃ s, _ ∧ _ = min _ _
    rcases uint32_min_eq st.minTtl sig.origTtl with e | e
    · rw [e]
      rcases h9 with h9 | ⟨s, hs, e'⟩
      · exact Or.inl h9
      · exact Or.inr ⟨s, lift s hs, e'⟩
    · rw [e]; exact Or.inr ⟨sig, Or.inl (Or.inr rfl), rfl⟩

theorem Eff.congr {inp : List RR} {K Q K' Q' : RRSig → Prop} {st : VState} (h : Eff inp K Q st)
    (hK : ∀ s, K s ↔ K' s) (hQ : ∀ s, Q s ↔ Q' s) : Eff inp K' Q' st := by
  have e1 : K = K' := funext fun s => propext (hK s)
  have e2 : Q = Q' := funext fun s => propext (hQ s)
  rw [← e1, ← e2]; exact h

/-- Moving a noted signature from `K` to `Q`, with its effect on records and needs. -/
theorem Eff.toQ {inp : List RR} {K Q : RRSig → Prop} {st st' : VState} {sig : RRSig}
    (h : Eff inp (fun s => K s ∨ s = sig) Q st)
    (hres : ∀ r, r ∈ st'.res ↔ r ∈ st.res ∨ (sig.ty ≠ dsType ∧ r ∈ rrset inp sig.name sig.ty))
    (hnd : st'.res.Nodup)
    (hneeds : ∀ n, n ∈ st'.needs ↔ n ∈ st.needs ∨ needOf sig n)
    (hi : st'.latestInception = st.latestInception) (he : st'.earliestExpiry = st.earliestExpiry) (ht : st'.minTtl = st.minTtl) :
    Eff inp K (fun s => Q s ∨ s = sig) st' := by
  obtain ⟨h1, h2, h3, h4, h5, h6, h7, h8, h9⟩ := h
  have re : ∀ s, (K s ∨ (Q s ∨ s = sig)) ↔ ((K s ∨ s = sig) ∨ Q s) := by
    intro s
    constructor
    · rintro (h | h | h)
      · exact Or.inl (Or.inl h)
      · exact Or.inr h
      · exact Or.inl (Or.inr h)
    · rintro ((h | h) | h)
      · exact Or.inl h
      · exact Or.inr (Or.inr h)
      · exact Or.inr (Or.inl h)
  refine ⟨?_, hnd, ?_, ?_, ?_, ?_, ?_, ?_, ?_⟩
  · intro r
    rw [hres, h1]
    constructor
    · rintro (⟨s, a, b⟩ | b)
      · exact ⟨s, Or.inl a, b⟩
      · exact ⟨sig, Or.inr rfl, b⟩
    · rintro ⟨s, a | rfl, b⟩
      · exact Or.inl ⟨s, a, b⟩
      · exact Or.inr b
  · intro n
    rw [hneeds, h3]
    constructor
    · rintro (⟨s, a, b⟩ | b)
      · exact ⟨s, Or.inl a, b⟩
      · exact ⟨sig, Or.inr rfl, b⟩
    · rintro ⟨s, a | rfl, b⟩
      · exact Or.inl ⟨s, a, b⟩
      · exact Or.inr b
  · intro s hs; rw [hi]; exact h4 s ((re s).mp hs)
  · rw [hi]
    rcases h5 with h5 | ⟨s, hs, e⟩
    · exact Or.inl h5
    · exact Or.inr ⟨s, (re s).mpr hs, e⟩
  · intro s hs; rw [he]; exact h6 s ((re s).mp hs)
  · rw [he]
    rcases h7 with h7 | ⟨s, hs, e⟩
    · exact Or.inl h7
    · exact Or.inr ⟨s, (re s).mpr hs, e⟩
  · intro s hs; rw [ht]; exact h8 s ((re s).mp hs)
  · rw [ht]
    rcases h9 with h9 | ⟨s, hs, e⟩
    · exact Or.inl h9
    · exact Or.inr ⟨s, (re s).mpr hs, e⟩

/-- One accepted signature. -/
theorem acceptSig_ok {dbg : Bool} {inp : List RR} {sig : RRSig} {st st' : VState}
    (h : acceptSig dbg inp sig st = .ok st') :
    Acceptable dbg sig ∧
    (∀ r, st.res.Nodup → (r ∈ st'.res ↔ r ∈ st.res ∨ (sig.ty ≠ dsType ∧ r ∈ rrset inp sig.name sig.ty))) ∧
    (st.res.Nodup → st'.res.Nodup) ∧
    (∀ n, n ∈ st'.needs ↔ n ∈ st.needs ∨ needOf sig n) ∧
    st'.latestInception = st.latestInception ∧ st'.earliestExpiry = st.earliestExpiry ∧ st'.minTtl = st.minTtl ∧
    (st'.pending = st.pending ∧ (sig.ty = dsType → ∃ e ∈ st.pending, e.1 = sig.name) ∨
      sig.ty = dsType ∧ st'.pending = (sig.name, dsAt inp sig.name) :: st.pending) := by
  unfold acceptSig at h
  by_cases h1 : sig.ty = rrsigType ∨ sig.ty = dnskeyType
  · rw [if_pos h1] at h; simp at h
  rw [if_neg h1] at h
  rw [not_or] at h1
  by_cases h2 : sig.ty = dsType
  · rw [if_pos h2] at h
    have hacc : Acceptable dbg sig := ⟨h1.1, h1.2, fun h => absurd h2 h⟩
    have hno : ∀ n, ¬ needOf sig n := fun n hn => hn.1 h2
    by_cases h3 : st.pending.any (fun (z, _) => z.bytes == sig.name.bytes) = true
    · rw [if_pos h3] at h
      simp only [Res.ok.injEq] at h; subst h
      refine ⟨hacc, by simp [h2], id, by simp [hno], rfl, rfl, rfl, Or.inl ⟨rfl, fun _ => ?_⟩⟩
      rw [List.any_eq_true] at h3
      obtain ⟨e, he, h4⟩ := h3
      exact ⟨e, he, (Name.ext_iff' _ _).mp (by simpa using h4)⟩
    · rw [if_neg h3] at h
      simp only [Res.ok.injEq] at h; subst h
      exact ⟨hacc, by simp [h2], id, by simp [hno], rfl, rfl, rfl, Or.inr ⟨h2, by rw [dsSet_eq inp sig h2]⟩⟩
  · rw [if_neg h2] at h
    simp only [coveredRecords_eq] at h
    by_cases h3 : sig.labels ≠ sig.name.labels ∧ sig.ty ≠ nsecType
    · rw [if_pos h3] at h
      by_cases h4 : sig.ty = nsec3Type
      · rw [if_pos h4] at h; simp at h
      rw [if_neg h4] at h
      unfold labelsPlusOne at h
      by_cases h5 : (dbg && sig.labels == 255) = true
      · rw [if_pos h5] at h; simp [Res.bind] at h
      rw [if_neg h5] at h
      simp only [Res.bind] at h
      cases h6 : sig.name.trailingNLabels (sig.labels + 1) with
      | none => rw [h6] at h; simp at h
      | some nm =>
        rw [h6] at h
        simp only [Res.ok.injEq] at h; subst h
        have h7 : sig.labels + 1 ≤ sig.name.labels := (trailingNLabels_isSome _ _).mp (by rw [h6]; rfl)
        refine ⟨⟨h1.1, h1.2, fun _ _ => ⟨h4, ?_, h7⟩⟩, ?_, ?_, ?_, rfl, rfl, rfl, Or.inl ⟨rfl, fun h => absurd h h2⟩⟩
        · intro hd h8; rw [hd, h8] at h5; simp at h5
        · intro r _; simp only [pushAll_mem]; simp [h2]
        · exact pushAll_nodup _ _
        · intro n
          simp only [List.mem_append, List.mem_singleton]
          have : n = ⟨nm, sig.keyName, sig.ty⟩ ↔ needOf sig n := by
            unfold needOf
            rw [h6]
            cases n
            simp only [Need.mk.injEq, Option.some.injEq]
            constructor
            · rintro ⟨rfl, rfl, rfl⟩; exact ⟨h2, h3, rfl, rfl, rfl⟩
            · rintro ⟨_, _, a, b, c⟩; exact ⟨c.symm, a, b⟩
          rw [this]
    · rw [if_neg h3] at h
      simp only [Res.ok.injEq] at h; subst h
      refine ⟨⟨h1.1, h1.2, fun _ he => absurd he h3⟩, ?_, pushAll_nodup _ _, ?_, rfl, rfl, rfl,
        Or.inl ⟨rfl, fun h => absurd h h2⟩⟩
      · intro r _; simp only [pushAll_mem]; simp [h2]
      · intro n
        have : ¬ needOf sig n := fun hn => h3 hn.2.1
        simp [this]

/-- The loop over the signatures of one zone. -/
theorem sigLoop_ok {dbg : Bool} {p : Platform} {inp : List RR} {z : Name} : ∀ {sigs : List RRSig} {st st' : VState}
    {K Q : RRSig → Prop}, Eff inp K Q st → sigLoop dbg p inp z.bytes sigs st = .ok st' →
    Eff inp K (fun s => Q s ∨ (s ∈ sigs ∧ verifyRrsig p s (keysAt inp z) (rrset inp s.name s.ty) = .ok ())) st' ∧
    (∀ s ∈ sigs, endsWith s.name.bytes z.bytes = true ∧
      (verifyRrsig p s (keysAt inp z) (rrset inp s.name s.ty) = .err .unsupported ∨
        verifyRrsig p s (keysAt inp z) (rrset inp s.name s.ty) = .ok () ∧ Acceptable dbg s)) ∧
    (∀ e ∈ st.pending, e ∈ st'.pending) ∧
    (∀ s ∈ sigs, verifyRrsig p s (keysAt inp z) (rrset inp s.name s.ty) = .ok () → s.ty = dsType →
      ∃ e ∈ st'.pending, e.1 = s.name) ∧
    (∀ e ∈ st'.pending, e ∈ st.pending ∨ ∃ s ∈ sigs,
      verifyRrsig p s (keysAt inp z) (rrset inp s.name s.ty) = .ok () ∧ s.ty = dsType ∧ e = (s.name, dsAt inp s.name))
  | [], st, st', K, Q, hE, h => by
    simp only [sigLoop, Res.ok.injEq] at h; subst h
    refine ⟨hE.congr (by simp) (by simp), by simp, by simp, by simp, by simp⟩
  | s :: sigs, st, st', K, Q, hE, h => by
    rw [sigLoop] at h
    by_cases hz : endsWith s.name.bytes z.bytes = true
    · rw [if_neg (by simp [hz]), zoneKeys_eq, coveredRecords_eq] at h
      cases hv : verifyRrsig p s (keysAt inp z) (rrset inp s.name s.ty) with
      | panic => rw [hv] at h; simp at h
      | err e =>
        rw [hv] at h
        cases e with
        | invalid => simp at h
        | unsupported =>
          simp only at h
          obtain ⟨i1, i2, i3, i4, i5⟩ := sigLoop_ok hE h
          refine ⟨i1.congr (by simp) ?_, ?_, i3, ?_, ?_⟩
          · intro t
            constructor
            · rintro (a | ⟨a, b⟩)
              · exact Or.inl a
              · exact Or.inr ⟨by simp [a], b⟩
            · rintro (a | ⟨a, b⟩)
              · exact Or.inl a
              · rcases List.mem_cons.mp a with rfl | a
                · rw [hv] at b; simp at b
                · exact Or.inr ⟨a, b⟩
          · intro t ht
            rcases List.mem_cons.mp ht with rfl | ht
            · exact ⟨hz, Or.inl hv⟩
            · exact i2 t ht
          · intro t ht hg
            rcases List.mem_cons.mp ht with rfl | ht
            · rw [hv] at hg; simp at hg
            · exact i4 t ht hg
          · intro e he
            rcases i5 e he with a | ⟨t, ht, a⟩
            · exact Or.inl a
            · exact Or.inr ⟨t, by simp [ht], a⟩
      | ok u =>
        cases u
        rw [hv] at h
        simp only at h
        cases ha : acceptSig dbg inp s (st.note s) with
        | err e => rw [ha] at h; simp [Res.bind] at h
        | panic => rw [ha] at h; simp [Res.bind] at h
        | ok st1 =>
          rw [ha] at h
          simp only [Res.bind] at h
          obtain ⟨a1, a2, a3, a4, a5, a6, a7, a8⟩ := acceptSig_ok ha
          have hn := hE.noteK s
          have hE1 : Eff inp K (fun t => Q t ∨ t = s) st1 :=
            hn.toQ (fun r => a2 r hn.nodup) (a3 hn.nodup) a4 a5 a6 a7
          obtain ⟨i1, i2, i3, i4, i5⟩ := sigLoop_ok hE1 h
          have hpend : ∀ e ∈ st.pending, e ∈ st1.pending := by
            intro e he
            rcases a8 with ⟨q, _⟩ | ⟨_, q⟩
            · rw [q]; exact he
            · rw [q]; exact List.mem_cons_of_mem _ he
          refine ⟨i1.congr (by simp) ?_, ?_, fun e he => i3 e (hpend e he), ?_, ?_⟩
          · intro t
            constructor
            · rintro ((a | rfl) | ⟨a, b⟩)
              · exact Or.inl a
              · exact Or.inr ⟨by simp, hv⟩
              · exact Or.inr ⟨by simp [a], b⟩
            · rintro (a | ⟨a, b⟩)
              · exact Or.inl (Or.inl a)
              · rcases List.mem_cons.mp a with rfl | a
                · exact Or.inl (Or.inr rfl)
                · exact Or.inr ⟨a, b⟩
          · intro t ht
            rcases List.mem_cons.mp ht with rfl | ht
            · exact ⟨hz, Or.inr ⟨hv, a1⟩⟩
            · exact i2 t ht
          · intro t ht hg hd
            rcases List.mem_cons.mp ht with rfl | ht
            · have : ∃ e ∈ st1.pending, e.1 = t.name := by
                rcases a8 with ⟨q, q2⟩ | ⟨_, q⟩
                · rw [q]; exact q2 hd
                · rw [q]; exact ⟨_, List.mem_cons_self, rfl⟩
              obtain ⟨e, he, e2⟩ := this
              exact ⟨e, i3 e he, e2⟩
            · exact i4 t ht hg hd
          · intro e he
            rcases i5 e he with a | ⟨t, ht, a⟩
            · rcases a8 with ⟨q, _⟩ | ⟨q1, q⟩
              · rw [q] at a; exact Or.inl a
              · rw [q] at a
                rcases List.mem_cons.mp a with rfl | a
                · exact Or.inr ⟨s, by simp, hv, q1, rfl⟩
                · exact Or.inl a
            · exact Or.inr ⟨t, by simp [ht], a⟩
    · rw [if_pos (by simpa using hz)] at h; simp at h

end Dnssec
