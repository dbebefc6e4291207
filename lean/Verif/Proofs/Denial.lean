import Verif.Proofs.ZoneLoop
import Verif.Proofs.Base32

/-! # The search for denial records -/

namespace Dnssec

open Spec

theorem nsec3HashIter_comm (p : Platform) (salt : Bytes) : ∀ (k : Nat) (h : Bytes),
    nsec3HashIter p salt k (p.sha1 (h ++ salt)) = p.sha1 (nsec3HashIter p salt k h ++ salt)
  | 0, _ => rfl
  | k + 1, h => by rw [nsec3HashIter, nsec3HashIter_comm p salt k, nsec3HashIter]

theorem nsec3Hash_eq (p : Platform) (name salt : Bytes) (it : UInt16) :
    nsec3Hash p name salt it = iteratedHash p.sha1 salt (writeName name) it.toNat := by
  unfold nsec3Hash
  have : ∀ k, nsec3HashIter p salt k (p.sha1 (writeName name ++ salt)) = iteratedHash p.sha1 salt (writeName name) k := by
    intro k
    induction k with
    | zero => rfl
    | succ k ih => rw [nsec3HashIter, nsec3HashIter_comm, ih, iteratedHash]
  exact this _

theorem mem_nsecSearch {res : List RR} {z : Name} {n : NSec} :
    n ∈ nsecSearch res z ↔ RR.nsec n ∈ res ∧ endsWith n.name.bytes z.bytes = true := by
  unfold nsecSearch
  rw [List.mem_filterMap]
  constructor
  · rintro ⟨r, hr, h⟩
    cases r with
    | nsec t =>
      simp only at h
      split at h
      · rename_i h1
        simp only [Option.some.injEq] at h; subst h; exact ⟨hr, h1⟩
      · simp at h
    | _ => simp at h
  · rintro ⟨h, h1⟩
    exact ⟨_, h, by simp [h1]⟩

theorem mem_nsec3Search {res : List RR} {z : Name} {n : NSec3} :
    n ∈ nsec3Search res z ↔ RR.nsec3 n ∈ res ∧ endsWith n.name.bytes z.bytes = true := by
  unfold nsec3Search
  rw [List.mem_filterMap]
  constructor
  · rintro ⟨r, hr, h⟩
    cases r with
    | nsec3 t =>
      simp only at h
      split at h
      · rename_i h1
        simp only [Option.some.injEq] at h; subst h; exact ⟨hr, h1⟩
      · simp at h
    | _ => simp at h
  · rintro ⟨h, h1⟩
    exact ⟨_, h, by simp [h1]⟩

theorem swap_gt (o : Ordering) : o.swap = .gt ↔ o = .lt := by cases o <;> simp

theorem nsecProves_iff (need : Need) (n : NSec) : nsecProves need n = true ↔ NsecDenies n need.name need.ty := by
  unfold nsecProves NsecDenies
  rw [nsecOrd_swap need.name n.nextName.bytes]
  simp only [Bool.or_eq_true, Bool.and_eq_true, beq_iff_eq, Bool.not_eq_true', bne_iff_ne, swap_gt, nsecOrd_lt_text, nsecOrd_le_text]

/-- Entries of the parameter table: the hash belongs to its parameters, iterations are limited, at most two entries. -/
theorem nsec3Params_ok (p : Platform) (name : Bytes) : ∀ (ns : List NSec3) (acc : List (UInt16 × Bytes × Bytes)),
    (∀ e ∈ acc, e.1.toNat ≤ 2500 ∧ e.2.2 = nsec3Hash p name e.2.1 e.1) →
    ∀ e ∈ nsec3Params p name ns acc, e.1.toNat ≤ 2500 ∧ e.2.2 = nsec3Hash p name e.2.1 e.1
  | [], acc, h => h
  | n :: ns, acc, h => by
    rw [nsec3Params]
    split
    · exact nsec3Params_ok p name ns acc h
    · rename_i h1
      split
      · exact nsec3Params_ok p name ns acc h
      · split
        · exact nsec3Params_ok p name ns acc h
        · have h' : ∀ e ∈ acc ++ [(n.hashIterations, n.salt, nsec3Hash p name n.salt n.hashIterations)],
              e.1.toNat ≤ 2500 ∧ e.2.2 = nsec3Hash p name e.2.1 e.1 := by
            intro e he
            rcases List.mem_append.mp he with he | he
            · exact h e he
            · rw [List.mem_singleton.mp he]
              exact ⟨UInt16.le_iff_toNat_le.mp (UInt16.not_lt.mp h1), rfl⟩
          simp only []
          split
          · exact h'
          · exact nsec3Params_ok p name ns _ h'

theorem nsec3Params_length (p : Platform) (name : Bytes) : ∀ (ns : List NSec3) (acc : List (UInt16 × Bytes × Bytes)),
    acc.length < 2 → (nsec3Params p name ns acc).length ≤ 2
  | [], acc, h => by rw [nsec3Params]; omega
  | n :: ns, acc, h => by
    rw [nsec3Params]
    split
    · exact nsec3Params_length p name ns acc h
    · split
      · exact nsec3Params_length p name ns acc h
      · split
        · exact nsec3Params_length p name ns acc h
        · simp only []
          split
          · simp; omega
          · rename_i h3
            exact nsec3Params_length p name ns _ (by omega)

theorem splitOnceDot_some_iff : ∀ (s l r : Bytes), splitOnceDot s = some (l, r) ↔ s = l ++ dot :: r ∧ dot ∉ l
  | [], l, r => by simp [splitOnceDot]
  | b :: bs, l, r => by
    rw [splitOnceDot]
    by_cases hb : b = dot
    · rw [if_pos hb]
      simp only [Option.some.injEq, Prod.mk.injEq]
      constructor
      · rintro ⟨rfl, rfl⟩; exact ⟨by rw [hb]; rfl, by simp⟩
      · rintro ⟨h1, h2⟩
        cases l with
        | nil => simp at h1; exact ⟨rfl, h1.2⟩
        | cons x l =>
          obtain ⟨rfl, _⟩ := List.cons.inj h1
          rw [hb] at h2
          simp at h2
    · rw [if_neg hb]
      constructor
      · intro h
        cases ho : splitOnceDot bs with
        | none => rw [ho] at h; simp at h
        | some v =>
          obtain ⟨l', r'⟩ := v
          rw [ho] at h
          simp only [Option.some.injEq, Prod.mk.injEq] at h
          obtain ⟨rfl, rfl⟩ := h
          obtain ⟨h1, h2⟩ := (splitOnceDot_some_iff bs l' r').mp ho
          refine ⟨by rw [h1]; rfl, ?_⟩
          simp only [List.mem_cons, not_or]
          exact ⟨fun h => hb h.symm, h2⟩
      · rintro ⟨h1, h2⟩
        cases l with
        | nil =>
          obtain ⟨rfl, _⟩ := List.cons.inj h1
          exact absurd rfl hb
        | cons x l =>
          obtain ⟨rfl, h3⟩ := List.cons.inj h1
          simp only [List.mem_cons, not_or] at h2
          rw [(splitOnceDot_some_iff bs l r).mpr ⟨h3, h2.2⟩]

theorem base32_decode_nil : Base32.decode [] = some [] := by decide

theorem nsec3Usable_some {p : Platform} {name : Bytes} {params : List (UInt16 × Bytes × Bytes)} {n : NSec3} {start h : Bytes}
    (hp : ∀ e ∈ params, e.1.toNat ≤ 2500 ∧ e.2.2 = nsec3Hash p name e.2.1 e.1)
    (hu : nsec3Usable params n = some (start, h)) :
    n.flags = 0 ∧ n.hashAlgo = 1 ∧ n.hashIterations.toNat ≤ 2500 ∧
    h = iteratedHash p.sha1 n.salt (writeName name) n.hashIterations.toNat ∧
    ∃ label rest, n.name.bytes = label ++ dot :: rest ∧ dot ∉ label ∧ Base32.decode label = some start ∧
      start.length = 20 ∧ n.nextNameHash.length = 20 := by
  unfold nsec3Usable at hu
  by_cases h1 : n.flags ≠ 0
  · rw [if_pos h1] at hu; simp at hu
  rw [if_neg h1] at hu
  by_cases h2 : n.hashAlgo ≠ 1
  · rw [if_pos h2] at hu; simp at hu
  rw [if_neg h2] at hu
  cases h3 : params.find? (fun (it, salt, _) => it == n.hashIterations && salt == n.salt) with
  | none => rw [h3] at hu; simp at hu
  | some e =>
    obtain ⟨it, salt, hash⟩ := e
    rw [h3] at hu
    have hm := List.mem_of_find?_eq_some h3
    have he := List.find?_some h3
    simp only [Bool.and_eq_true, beq_iff_eq] at he
    obtain ⟨rfl, rfl⟩ := he
    obtain ⟨q1, q2⟩ := hp _ hm
    simp only at q1 q2 hu
    cases h4 : splitOnceDot n.name.bytes with
    | none =>
      rw [h4] at hu
      simp only [base32_decode_nil] at hu
      simp at hu
    | some v =>
      obtain ⟨label, rest⟩ := v
      rw [h4] at hu
      simp only at hu
      cases h5 : Base32.decode label with
      | none => rw [h5] at hu; simp at hu
      | some st =>
        rw [h5] at hu
        simp only at hu
        by_cases h6 : st.length ≠ 20 ∨ n.nextNameHash.length ≠ 20
        · rw [if_pos h6] at hu; simp at hu
        · rw [if_neg h6] at hu
          simp only [Option.some.injEq, Prod.mk.injEq] at hu
          obtain ⟨rfl, rfl⟩ := hu
          rw [not_or] at h6
          obtain ⟨g1, g2⟩ := (splitOnceDot_some_iff _ _ _).mp h4
          exact ⟨Decidable.not_not.mp h1, Decidable.not_not.mp h2, q1, by rw [q2, nsec3Hash_eq], label, rest, g1, g2, h5,
            Decidable.not_not.mp h6.1, Decidable.not_not.mp h6.2⟩

theorem cmpBytes_swap' (a b : Bytes) : cmpBytes b a = (cmpBytes a b).swap := Std.OrientedCmp.eq_swap (cmp := cmpBytes)

theorem cmpBytes_le_octet (a b : Bytes) : cmpBytes a b ≠ .gt ↔ a = b ∨ OctetLt a b := by
  rw [← cmpBytes_lt_iff, ← cmpBytes_eq_iff]
  cases cmpBytes a b <;> simp

/-- As decided by the code. -/
structure Nsec3DeniesM (p : Platform) (n : NSec3) (name : Bytes) (ty : UInt16) : Prop where
  flags : n.flags = 0
  algo : n.hashAlgo = 1
  iterations : n.hashIterations.toNat ≤ 2500
  denies : ∃ label rest start, n.name.bytes = label ++ dot :: rest ∧ dot ∉ label ∧ Base32.decode label = some start ∧
    start.length = 20 ∧ n.nextNameHash.length = 20 ∧
    ((start = iteratedHash p.sha1 n.salt (writeName name) n.hashIterations.toNat ∧ n.types.containsType ty = false) ∨
     (cmpBytes start (iteratedHash p.sha1 n.salt (writeName name) n.hashIterations.toNat) ≠ .gt ∧
      cmpBytes (iteratedHash p.sha1 n.salt (writeName name) n.hashIterations.toNat) n.nextNameHash = .lt))

theorem nsec3Denies_iff (p : Platform) (n : NSec3) (name : Bytes) (ty : UInt16) :
    Nsec3Denies p n name ty ↔ Nsec3DeniesM p n name ty := by
  constructor
  · rintro ⟨a1, a2, a3, label, rest, start, hash, b1, b2, b3, b4, b5, rfl, b6⟩
    refine ⟨a1, a2, a3, label, rest, start, b1, b2, (Base32.decode_iff_hex _ _).mpr b3, b4, b5, ?_⟩
    rw [cmpBytes_le_octet, cmpBytes_lt_iff, writeName_eq_nameWire]
    exact b6
  · rintro ⟨a1, a2, a3, label, rest, start, b1, b2, b3, b4, b5, b6⟩
    refine ⟨a1, a2, a3, label, rest, start, _, b1, b2, (Base32.decode_iff_hex _ _).mp b3, b4, b5, rfl, ?_⟩
    rw [cmpBytes_le_octet, cmpBytes_lt_iff, writeName_eq_nameWire] at b6
    exact b6

theorem nsec3Proves_denies {p : Platform} {need : Need} {params : List (UInt16 × Bytes × Bytes)} {n : NSec3}
    (hp : ∀ e ∈ params, e.1.toNat ≤ 2500 ∧ e.2.2 = nsec3Hash p need.name e.2.1 e.1)
    (h : nsec3Proves need params n = true) : Nsec3Denies p n need.name need.ty := by
  unfold nsec3Proves at h
  cases hu : nsec3Usable params n with
  | none => rw [hu] at h; simp at h
  | some v =>
    obtain ⟨start, hash⟩ := v
    rw [hu] at h
    obtain ⟨a1, a2, a3, a4, label, rest, a5, a6, a7, a8, a9⟩ := nsec3Usable_some hp hu
    simp only [Bool.or_eq_true, Bool.and_eq_true, beq_iff_eq, Bool.not_eq_true', bne_iff_ne,
      cmpBytes_swap' hash n.nextNameHash, swap_gt] at h
    rw [a4] at h
    rw [nsec3Denies_iff]
    exact ⟨a1, a2, a3, label, rest, start, a5, a6, a7, a8, a9, h⟩

/-- A denial for one type at a name also serves another type at the same name unless it shows that type. -/
theorem nsec3Drop_denies {p : Platform} {need o : Need} {params : List (UInt16 × Bytes × Bytes)} {n : NSec3}
    (hp : ∀ e ∈ params, e.1.toNat ≤ 2500 ∧ e.2.2 = nsec3Hash p need.name e.2.1 e.1)
    (h : nsec3Proves need params n = true) (hk : nsec3Keep need params n o = false) : o.name = need.name ∧ Nsec3Denies p n o.name o.ty := by
  unfold nsec3Proves at h
  unfold nsec3Keep at hk
  cases hu : nsec3Usable params n with
  | none => rw [hu] at h; simp at h
  | some v =>
    obtain ⟨start, hash⟩ := v
    rw [hu] at h hk
    obtain ⟨a1, a2, a3, a4, label, rest, a5, a6, a7, a8, a9⟩ := nsec3Usable_some hp hu
    simp only [Bool.or_eq_true, Bool.and_eq_true, beq_iff_eq, Bool.not_eq_true', bne_iff_ne,
      cmpBytes_swap' hash n.nextNameHash, swap_gt] at h
    simp only [Bool.or_eq_false_iff, bne_eq_false_iff_eq, Bool.and_eq_false_iff, beq_eq_false_iff_ne] at hk
    obtain ⟨hname, hk⟩ := hk
    refine ⟨hname, (nsec3Denies_iff _ _ _ _).mpr ⟨a1, a2, a3, label, rest, start, a5, a6, a7, a8, a9, ?_⟩⟩
    rw [hname, ← a4]
    by_cases hs : start = hash
    · rcases hk with hk | hk
      · exact absurd hs hk
      · exact Or.inl ⟨hs, hk⟩
    · rcases h with ⟨h1, _⟩ | h
      · exact absurd h1 hs
      · exact Or.inr h

theorem nsecDrop_denies {need o : Need} {n : NSec} (h : nsecProves need n = true) (hk : nsecKeep need n o = false) :
    o.name = need.name ∧ NsecDenies n o.name o.ty := by
  rw [nsecProves_iff] at h
  unfold nsecKeep at hk
  simp only [Bool.or_eq_false_iff, bne_eq_false_iff_eq, Bool.and_eq_false_iff, beq_eq_false_iff_ne] at hk
  obtain ⟨hname, hk⟩ := hk
  refine ⟨hname, ?_⟩
  unfold NsecDenies at *
  rw [hname]
  by_cases hs : n.name.bytes = need.name
  · rcases hk with hk | hk
    · exact absurd hs hk
    · exact Or.inl ⟨hs, hk⟩
  · rcases h with ⟨h1, _⟩ | h
    · exact absurd h1 hs
    · exact Or.inr h

/-- The denial of one need: a record of the result, in (the text of) the zone of some need with the same name. -/
def SettledBy (p : Platform) (res : List RR) (needs : List Need) (need : Need) : Prop :=
  ∃ o ∈ needs, o.name = need.name ∧
    ((∃ n, RR.nsec n ∈ res ∧ endsWith n.name.bytes o.zone.bytes = true ∧ NsecDenies n need.name need.ty) ∨
     (∃ n, RR.nsec3 n ∈ res ∧ endsWith n.name.bytes o.zone.bytes = true ∧ Nsec3Denies p n need.name need.ty))

theorem SettledBy.mono {p : Platform} {res : List RR} {a b : List Need} {need : Need} (hab : ∀ x ∈ a, x ∈ b)
    (h : SettledBy p res a need) : SettledBy p res b need := by
  obtain ⟨o, ho, h⟩ := h
  exact ⟨o, hab o ho, h⟩

theorem proofLoop_ok {p : Platform} {res : List RR} : ∀ {fuel : Nat} {needs : List Need}, needs.length ≤ fuel →
    proofLoop p res fuel needs = .ok () → ∀ need ∈ needs, SettledBy p res needs need
  | _, [], _, _ => by simp
  | 0, need :: rest, hl, _ => by simp at hl
  | fuel + 1, need :: rest, hl, h => by
    rw [proofLoop] at h
    have hlen : ∀ f : Need → Bool, (rest.filter f).length ≤ fuel := by
      intro f
      have := List.length_filter_le f rest
      simp at hl; omega
    cases hf : (nsecSearch res need.zone).find? (nsecProves need) with
    | some n =>
      rw [hf] at h
      simp only at h
      have hm := mem_nsecSearch.mp (List.mem_of_find?_eq_some hf)
      have hp := List.find?_some hf
      have ih := proofLoop_ok (hlen _) h
      intro o ho
      rcases List.mem_cons.mp ho with rfl | ho
      · exact ⟨o, by simp, rfl, Or.inl ⟨n, hm.1, hm.2, (nsecProves_iff _ _).mp hp⟩⟩
      · by_cases hk : nsecKeep need n o = true
        · exact (ih o (List.mem_filter.mpr ⟨ho, hk⟩)).mono (fun x hx => List.mem_cons_of_mem _ (List.mem_filter.mp hx).1)
        · obtain ⟨h1, h2⟩ := nsecDrop_denies hp (by simpa using hk)
          exact ⟨need, by simp, h1.symm, Or.inl ⟨n, hm.1, hm.2, h2⟩⟩
    | none =>
      rw [hf] at h
      simp only at h
      cases hf3 : (nsec3Search res need.zone).find? (nsec3Proves need (nsec3Params p need.name (nsec3Search res need.zone) [])) with
      | none => rw [hf3] at h; simp at h
      | some n =>
        rw [hf3] at h
        simp only at h
        have hpar := nsec3Params_ok p need.name (nsec3Search res need.zone) [] (by simp)
        have hm := mem_nsec3Search.mp (List.mem_of_find?_eq_some hf3)
        have hp := List.find?_some hf3
        have ih := proofLoop_ok (hlen _) h
        intro o ho
        rcases List.mem_cons.mp ho with rfl | ho
        · exact ⟨o, by simp, rfl, Or.inr ⟨n, hm.1, hm.2, nsec3Proves_denies hpar hp⟩⟩
        · by_cases hk : nsec3Keep need (nsec3Params p need.name (nsec3Search res need.zone) []) n o = true
          · exact (ih o (List.mem_filter.mpr ⟨ho, hk⟩)).mono (fun x hx => List.mem_cons_of_mem _ (List.mem_filter.mp hx).1)
          · obtain ⟨h1, h2⟩ := nsec3Drop_denies hpar hp (by simpa using hk)
            exact ⟨need, by simp, h1.symm, Or.inr ⟨n, hm.1, hm.2, h2⟩⟩

end Dnssec
