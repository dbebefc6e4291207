import Verif.Proofs.Simple
import Verif.Proofs.Resolve

/-! # A zone whose DNAMEs count in binary -/

namespace Dnssec

open Spec

/-- The binary digits, one per label, as text. -/
def digits (bits : List Bool) : Bytes := bits.flatMap fun b => [if b then 49 else 48, 46]

/-- A number below `c.`: `0.1.1.c.`. -/
def numName (bits : List Bool) : Name := ⟨digits bits ++ ascii "c."⟩

/-- The carry: `0` followed by `i` ones becomes `1` followed by `i` zeros. -/
def carry (i : Nat) : RR := .dname ⟨numName (false :: List.replicate i true), numName (true :: List.replicate i false)⟩

/-- The address at the largest number. -/
def topAddress (n : Nat) : RR := .a ⟨numName (List.replicate n true), ⟨[1, 2, 3, 4], rfl⟩⟩

/-- All carries, and an address at the largest number. -/
def counterRecords (n : Nat) : List RR := (List.range n).map carry ++ [topAddress n]

theorem digits_append (a b : List Bool) : digits (a ++ b) = digits a ++ digits b := by
  simp [digits]

theorem digits_length (a : List Bool) : (digits a).length = 2 * a.length := by
  induction a with
  | nil => rfl
  | cons b a ih =>
    show ([if b then 49 else 48, 46] ++ digits a).length = _
    simp [ih]; omega

theorem digits_inj {a b : List Bool} (h : digits a = digits b) : a = b := by
  induction a generalizing b with
  | nil =>
    cases b with
    | nil => rfl
    | cons y b => exact absurd h (by simp [digits])
  | cons x a ih =>
    cases b with
    | nil => exact absurd h (by simp [digits])
    | cons y b =>
      have h' : [if x then (49 : UInt8) else 48, 46] ++ digits a = [if y then 49 else 48, 46] ++ digits b := h
      simp only [List.cons_append, List.nil_append, List.cons.injEq, true_and] at h'
      rw [ih h'.2]
      have : x = y := by
        have := h'.1
        revert this
        cases x <;> cases y <;> decide
      rw [this]

theorem numName_inj {a b : List Bool} (h : numName a = numName b) : a = b := by
  have := congrArg Name.bytes h
  exact digits_inj (List.append_cancel_right this)

/-- A number that ends, as text, in another ends in its digits. -/
theorem digits_suffix {a b : List Bool} {pre : Bytes} (h : digits a = pre ++ digits b) : ∃ c, a = c ++ b ∧ pre = digits c := by
  have hl := congrArg List.length h
  rw [List.length_append, digits_length, digits_length] at hl
  have e : a = a.take (a.length - b.length) ++ a.drop (a.length - b.length) := (List.take_append_drop _ _).symm
  rw [e, digits_append] at h
  have h2 := List.append_inj' h (by
    rw [digits_length, digits_length, List.length_drop]; omega)
  refine ⟨a.take (a.length - b.length), ?_, h2.1.symm⟩
  have h3 := digits_inj h2.2
  rw [h3] at e
  exact e

theorem numName_suffix {a b : List Bool} {pre : Bytes} (h : (numName a).bytes = pre ++ (numName b).bytes) :
    ∃ c, a = c ++ b ∧ pre = digits c := by
  refine digits_suffix (List.append_cancel_right (bs := ascii "c.") ?_)
  rw [List.append_assoc]
  exact h

theorem numName_append (a b : List Bool) : (numName (a ++ b)).bytes = digits a ++ (numName b).bytes := by
  simp [numName, digits_append]

theorem numName_labels {a : List Bool} (h : a.length ≤ 126) :
    HasLabels (numName a) (a.map (fun b => [if b then 49 else 48]) ++ [[99]]) := by
  refine ⟨?_, ?_, ?_⟩
  · intro l hl
    rcases List.mem_append.mp hl with hl | hl
    · obtain ⟨b, _, rfl⟩ := List.mem_map.mp hl
      cases b <;> exact ⟨by simp, by simp, by intro c hc; simp at hc; subst hc; decide⟩
    · simp only [List.mem_singleton] at hl
      subst hl
      exact ⟨by simp, by simp, by intro c hc; simp at hc; subst hc; decide⟩
  · unfold text
    rw [if_neg (by simp)]
    simp only [numName, digits, List.map_append, List.map_map, List.flatten_append, List.flatMap]
    congr 1
  · show (digits a ++ ascii "c.").length ≤ 255
    rw [List.length_append, digits_length]
    have : (ascii "c.").length = 2 := rfl
    omega

theorem numName_denotes {a : List Bool} (h : a.length ≤ 126) : Denotes (numName a).bytes (numName a) := by
  have := (numName_labels h).obtainable.nameText
  exact ⟨this.1, by rw [← lower_eq_fold, this.2]⟩

/-- The number of trailing ones is determined. -/
theorem trailing_ones {a b : List Bool} : ∀ {i j : Nat}, a ++ false :: List.replicate i true = b ++ false :: List.replicate j true → i = j
  | 0, 0, _ => rfl
  | 0, j + 1, h => by
    have h := congrArg List.getLast? h
    rw [List.replicate_succ', ← List.cons_append, ← List.append_assoc, List.getLast?_concat] at h
    simp at h
  | i + 1, 0, h => by
    have h := congrArg List.getLast? h
    rw [List.replicate_succ', ← List.cons_append, ← List.append_assoc, List.getLast?_concat] at h
    simp at h
  | i + 1, j + 1, h => by
    rw [List.replicate_succ', List.replicate_succ', ← List.cons_append, ← List.cons_append, ← List.append_assoc, ← List.append_assoc] at h
    rw [trailing_ones (List.append_cancel_right h)]

theorem not_all_ones {c : List Bool} {n i : Nat} : List.replicate n true ≠ c ++ false :: List.replicate i true := by
  intro h
  have : false ∈ List.replicate n true := by rw [h]; simp
  exact absurd (List.mem_replicate.mp this).2 (by simp)

theorem firstWith_only {rrs : List RR} {P : RR → Prop} {r : RR} (hr : r ∈ rrs) (hP : P r) (hu : ∀ x ∈ rrs, P x → x = r) :
    FirstWith rrs P r := by
  obtain ⟨as, bs, e, h⟩ := List.eq_append_cons_of_mem hr
  refine ⟨as, bs, e, hP, fun x hx hPx => h ?_⟩
  rw [← hu x (by rw [e]; simp [hx]) hPx]
  exact hx

variable {rrs : List RR} {n : Nat}

theorem mem_counter {r : RR} : r ∈ counterRecords n ↔ (∃ i, i < n ∧ r = carry i) ∨ r = topAddress n := by
  simp only [counterRecords, List.mem_append, List.mem_map, List.mem_range, List.mem_singleton]
  constructor
  · rintro (⟨i, h, rfl⟩ | h)
    · exact .inl ⟨i, h, rfl⟩
    · exact .inr h
  · rintro (⟨i, h, rfl⟩ | h)
    · exact .inl ⟨i, h, rfl⟩
    · exact .inr h

theorem counter_no_cname (h : ∀ r, r ∈ rrs ↔ r ∈ counterRecords n) (m : Name) : ∀ r ∈ rrs, ¬ CnameAt m r := by
  rintro r hr ⟨c, rfl, _⟩
  rcases mem_counter.mp ((h _).mp hr) with ⟨i, _, e⟩ | e <;> exact absurd e (by simp [carry, topAddress])

/-- Adding one. -/
theorem counter_step (h : ∀ r, r ∈ rrs ↔ r ∈ counterRecords n) (hi : List Bool) {i : Nat} (hin : i < n)
    (hl : hi.length + 1 + i ≤ 126) :
    Alias rrs (numName (hi ++ false :: List.replicate i true)) (numName (hi ++ true :: List.replicate i false)) := by
  refine .dname ⟨numName (false :: List.replicate i true), numName (true :: List.replicate i false)⟩ (digits hi) _
    (counter_no_cname h _) ?_ (numName_append _ _) ?_
  · refine firstWith_only ((h _).mpr (mem_counter.mpr (.inl ⟨i, hin, rfl⟩))) ⟨_, _, rfl, numName_append _ _⟩ ?_
    rintro x hx ⟨d, pre, rfl, hd⟩
    rcases mem_counter.mp ((h _).mp hx) with ⟨j, hj, e⟩ | e
    · simp only [carry, RR.dname.injEq] at e
      subst e
      obtain ⟨c, hc, _⟩ := numName_suffix hd
      rw [trailing_ones hc]
    · exact absurd e (by simp [topAddress])
  · rw [← numName_append]
    exact numName_denotes (by simp; omega)

/-- Counting from zeros to ones takes `2^k - 1` steps. -/
theorem counter_chain (h : ∀ r, r ∈ rrs ↔ r ∈ counterRecords n) : ∀ (k : Nat) (hi : List Bool), k ≤ n → hi.length + k ≤ 126 →
    Chain rrs (numName (hi ++ List.replicate k false)) (2 ^ k - 1) (numName (hi ++ List.replicate k true))
  | 0, hi, _, _ => by simpa using Chain.nil
  | k + 1, hi, hk, hl => by
    have a := counter_chain h k (hi ++ [false]) (by omega) (by simp; omega)
    have b := counter_chain h k (hi ++ [true]) (by omega) (by simp; omega)
    have s := counter_step h hi (i := k) (by omega) (by omega)
    simp only [List.append_assoc, List.cons_append, List.nil_append] at a b
    have c := chain_add (Chain.snoc a s) b
    have e : 2 ^ k - 1 + 1 + (2 ^ k - 1) = 2 ^ (k + 1) - 1 := by
      have : 0 < 2 ^ k := Nat.pow_pos (by omega)
      rw [Nat.pow_succ]; omega
    rw [e] at c
    exact c

theorem counter_final (h : ∀ r, r ∈ rrs ↔ r ∈ counterRecords n) :
    Spec.Final rrs (numName (List.replicate n true)) (rrs.filter fun r => r.name = numName (List.replicate n true)) := by
  refine .records (counter_no_cname h _) ?_
  rintro r hr ⟨d, pre, rfl, hd⟩
  rcases mem_counter.mp ((h _).mp hr) with ⟨j, hj, e⟩ | e
  · simp only [carry, RR.dname.injEq] at e
    subst e
    obtain ⟨c, hc, _⟩ := numName_suffix hd
    exact not_all_ones hc
  · exact absurd e (by simp [topAddress])

theorem counter_ordinary : Ordinary (counterRecords n) := by
  refine ⟨?_, ?_, ?_⟩
  · intro r hr
    rcases mem_counter.mp hr with ⟨i, _, rfl⟩ | rfl <;> exact ⟨_, rfl⟩
  · intro r hr
    rcases mem_counter.mp hr with ⟨i, _, rfl⟩ | rfl
    · show (39 : UInt16) ≠ 43 ∧ (39 : UInt16) ≠ 46 ∧ (39 : UInt16) ≠ 47 ∧ (39 : UInt16) ≠ 48 ∧ (39 : UInt16) ≠ 50
      decide
    · show (1 : UInt16) ≠ 43 ∧ (1 : UInt16) ≠ 46 ∧ (1 : UInt16) ≠ 47 ∧ (1 : UInt16) ≠ 48 ∧ (1 : UInt16) ≠ 50
      decide
  · unfold counterRecords
    rw [List.pairwise_append]
    refine ⟨?_, List.pairwise_singleton _ _, ?_⟩
    · rw [List.pairwise_map]
      refine List.Pairwise.imp ?_ (List.pairwise_lt_range)
      rintro i j hij ⟨e, _⟩
      have := trailing_ones (a := []) (b := []) (numName_inj e)
      omega
    · intro a ha b hb e
      obtain ⟨i, _, rfl⟩ := List.mem_map.mp ha
      rw [List.mem_singleton.mp hb] at e
      exact absurd (show (39 : UInt16) = 1 from e.2) (by decide)

/-! ### Few aliases -/

theorem chain_few {q : Name} (ho : ∀ d, RR.dname d ∈ rrs → Obtainable d.delegationName)
    (hd : ∀ d d' : DName, RR.dname d ∈ rrs → RR.dname d' ∈ rrs → ∀ x : Bytes,
      d.delegationName.bytes ≠ x ++ d'.name.bytes ∧ d'.name.bytes ≠ x ++ d.delegationName.bytes)
    (hret : ∃ fuel r, resolveName rrs fuel q = some r) {k : Nat} {m : Name}
    (h : Chain rrs q k m) : k ≤ 2 * (rrs.filter fun r => r.ty = 5).length + 1 := by
  have key : ∀ {k : Nat} {m : Name}, Chain rrs q k m → ∃ ns : List Name, ns.Nodup ∧ ns ⊆ (rrs.filter fun r => r.ty = 5).map RR.name ∧
      (∀ x ∈ ns, ∃ i, i < k ∧ Chain rrs q i x) ∧
      (k ≤ 2 * ns.length ∨ k ≤ 2 * ns.length + 1 ∧ ∀ r ∈ rrs, ¬ DnameFor m r) := by
    intro k m h
    induction h with
    | nil => exact ⟨[], by simp, by simp, by simp, .inl (by simp)⟩
    | @snoc k m m' hc ha ih =>
      obtain ⟨ns, h2, h3, h4, h5⟩ := ih
      cases ha with
      | cname c hf =>
        have hmem : RR.cname c ∈ rrs ∧ c.name = m := by
          obtain ⟨as, bs, e, ⟨c', e', e''⟩, _⟩ := hf
          cases e'
          exact ⟨by rw [e]; simp, e''⟩
        refine ⟨m :: ns, ?_, ?_, ?_, .inl ?_⟩
        · refine List.nodup_cons.mpr ⟨fun hm => ?_, h2⟩
          obtain ⟨i, hi, hci⟩ := h4 m hm
          obtain ⟨fuel, r, hr⟩ := hret
          rw [diverges_of_cycle hi hci hc fuel] at hr
          exact absurd hr (by simp)
        · intro x hx
          rcases List.mem_cons.mp hx with rfl | hx
          · exact List.mem_map.mpr ⟨.cname c, List.mem_filter.mpr ⟨hmem.1, by simp [RR.ty]⟩, hmem.2⟩
          · exact h3 hx
        · intro x hx
          rcases List.mem_cons.mp hx with rfl | hx
          · exact ⟨k, by omega, hc⟩
          · obtain ⟨i, hi, hci⟩ := h4 x hx
            exact ⟨i, by omega, hci⟩
        · simp only [List.length_cons]
          rcases h5 with h5 | h5 <;> omega
      | dname d pre _ _ hf hb hden =>
        have hmem : RR.dname d ∈ rrs := by
          obtain ⟨as, bs, e, _, _⟩ := hf
          rw [e]; simp
        refine ⟨ns, h2, h3, fun x hx => ?_, .inr ⟨?_, ?_⟩⟩
        · obtain ⟨i, hi, hci⟩ := h4 x hx
          exact ⟨i, by omega, hci⟩
        · rcases h5 with h5 | h5
          · omega
          · exact absurd ⟨d, pre, rfl, hb⟩ (h5.2 _ hmem)
        · rintro r hr ⟨d', pre', rfl, hb'⟩
          have hm' : m'.bytes = lower pre ++ d.delegationName.bytes := by
            have e1 : m'.bytes = lower (pre ++ d.delegationName.bytes) := by
              rw [lower_eq_fold]; exact hden.2
            have e2 : lower (pre ++ d.delegationName.bytes) = lower pre ++ lower d.delegationName.bytes := List.map_append
            rw [e1, e2, (ho d hmem).nameText.2]
          rw [hm'] at hb'
          rcases List.append_eq_append_iff.mp hb' with ⟨x, _, e⟩ | ⟨x, _, e⟩
          · exact (hd d d' hmem hr x).1 e
          · exact (hd d d' hmem hr x).2 e
  obtain ⟨ns, h2, h3, _, h5⟩ := key h
  have := List.Nodup.length_le_of_subset h2 h3
  rw [List.length_map] at this
  rcases h5 with h5 | h5 <;> omega

theorem chain_finite {q : Name} (hq : q.bytes.length ≤ 255) (hr : ∀ c, RR.cname c ∈ rrs → c.canonicalName.bytes.length ≤ 255)
    (hret : ∃ fuel r, resolveName rrs fuel q = some r) {k : Nat} {m : Name} (h : Chain rrs q k m) : k ≤ 257 ^ 255 := by
  have key : ∀ {k : Nat} {m : Name}, Chain rrs q k m → ∃ ns : List Nat, ns.length = k ∧ ns.Nodup ∧
      ∀ x ∈ ns, ∃ i m', i < k ∧ Chain rrs q i m' ∧ x = code m'.bytes := by
    intro k m h
    induction h with
    | nil => exact ⟨[], rfl, by simp, by simp⟩
    | @snoc k m m' hc ha ih =>
      obtain ⟨ns, h1, h2, h3⟩ := ih
      refine ⟨code m.bytes :: ns, by simp [h1], List.nodup_cons.mpr ⟨fun hm => ?_, h2⟩, ?_⟩
      · obtain ⟨i, m2, hi, hci, e⟩ := h3 _ hm
        have e' : m = m2 := (Name.ext_iff' _ _).mp (code_injective e)
        subst e'
        obtain ⟨fuel, r, hr⟩ := hret
        rw [diverges_of_cycle hi hci hc fuel] at hr
        exact absurd hr (by simp)
      · intro x hx
        rcases List.mem_cons.mp hx with rfl | hx
        · exact ⟨k, m, by omega, hc, rfl⟩
        · obtain ⟨i, m2, hi, hci, e⟩ := h3 x hx
          exact ⟨i, m2, by omega, hci, e⟩
  obtain ⟨ns, h1, h2, h3⟩ := key h
  rw [← h1]
  refine nodup_bound _ ns h2 fun x hx => ?_
  obtain ⟨i, m', _, hc, rfl⟩ := h3 x hx
  exact code_lt _ 255 (chain_short hq hr hc)

end Dnssec
