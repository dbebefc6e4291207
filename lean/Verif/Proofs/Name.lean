import Verif.Spec.Name

/-! # Lemmas about names -/

namespace Dnssec

open Spec

/-! ### splitDot -/

theorem splitDot_ne_nil (s : Bytes) : splitDot s ≠ [] := by
  induction s with
  | nil => simp [splitDot]
  | cons b bs ih =>
    unfold splitDot
    split
    · simp
    · split <;> simp

theorem splitDot_cons_dot (s : Bytes) : splitDot (dot :: s) = [] :: splitDot s := by
  simp [splitDot]

theorem splitDot_cons_ne {b : UInt8} (h : b ≠ dot) (s : Bytes) :
    ∃ l ls, splitDot s = l :: ls ∧ splitDot (b :: s) = (b :: l) :: ls := by
  cases hs : splitDot s with
  | nil => exact absurd hs (splitDot_ne_nil s)
  | cons l ls => exact ⟨l, ls, rfl, by simp [splitDot, h, hs]⟩

theorem splitDot_nodot {l : Bytes} (h : dot ∉ l) : splitDot l = [l] := by
  induction l with
  | nil => rfl
  | cons b bs ih =>
    have hb : b ≠ dot := by intro e; subst e; simp at h
    have := ih (by simp_all)
    simp [splitDot, hb, this]

theorem splitDot_label_dot {l : Bytes} (h : dot ∉ l) (r : Bytes) :
    splitDot (l ++ dot :: r) = l :: splitDot r := by
  induction l with
  | nil => simp [splitDot]
  | cons b bs ih =>
    have hb : b ≠ dot := by intro e; subst e; simp at h
    have := ih (by simp_all)
    simp [splitDot, hb, this]

theorem splitDot_flatten {ls : List Bytes} (h : ∀ l ∈ ls, dot ∉ l) :
    splitDot (ls.map (fun l => l ++ [dot])).flatten = ls ++ [[]] := by
  induction ls with
  | nil => simp [splitDot]
  | cons l ls ih =>
    have h1 := ih (fun x hx => h x (by simp [hx]))
    have h2 := splitDot_label_dot (h l (by simp)) (ls.map (fun l => l ++ [dot])).flatten
    simp only [List.map_cons, List.flatten_cons, List.append_assoc, List.cons_append, List.nil_append, h2, h1]

theorem splitDot_pieces_nodot (s : Bytes) : ∀ p ∈ splitDot s, dot ∉ p := by
  induction s with
  | nil => simp [splitDot]
  | cons b bs ih =>
    by_cases hb : b = dot
    · subst hb; rw [splitDot_cons_dot]; simp; exact ih
    · obtain ⟨l, ls, h1, h2⟩ := splitDot_cons_ne hb bs
      rw [h2]; rw [h1] at ih
      simp only [List.mem_cons] at *
      rintro p (rfl | hp)
      · simp only [List.mem_cons, not_or]; exact ⟨fun e => hb e.symm, ih l (Or.inl rfl)⟩
      · exact ih p (Or.inr hp)

/-- Splitting is inverted by joining with dots. -/
theorem splitDot_join (s : Bytes) : ∃ l ls, splitDot s = l :: ls ∧ s = l ++ (ls.map (fun l => dot :: l)).flatten := by
  induction s with
  | nil => exact ⟨[], [], rfl, rfl⟩
  | cons b bs ih =>
    obtain ⟨l, ls, h1, h2⟩ := ih
    by_cases hb : b = dot
    · subst hb
      exact ⟨[], l :: ls, by rw [splitDot_cons_dot, h1], by simp [← h2]⟩
    · obtain ⟨l', ls', h3, h4⟩ := splitDot_cons_ne hb bs
      rw [h1] at h3; injection h3 with h5 h6; subst h5; subst h6
      exact ⟨b :: l, ls, h4, by simp [← h2]⟩

theorem splitDot_head_prefix {s : Bytes} : ∀ {l : Bytes}, dot ∉ l → l <+: s → ∃ p ps, splitDot s = p :: ps ∧ l <+: p := by
  induction s with
  | nil => intro l _ hp; exact ⟨[], [], rfl, hp⟩
  | cons b bs ih =>
    intro l hl hp
    cases l with
    | nil =>
      cases h : splitDot (b :: bs) with
      | nil => exact absurd h (splitDot_ne_nil _)
      | cons p ps => exact ⟨p, ps, rfl, List.nil_prefix⟩
    | cons c cs =>
      rw [List.cons_prefix_cons] at hp
      obtain ⟨rfl, hp⟩ := hp
      have hc : c ≠ dot := by intro e; subst e; simp at hl
      obtain ⟨p, ps, h1, h2⟩ := ih (l := cs) (by simp_all) hp
      obtain ⟨l', ls', h3, h4⟩ := splitDot_cons_ne hc bs
      rw [h1] at h3; injection h3 with h5 h6; subst h5; subst h6
      exact ⟨_, _, h4, by rw [List.cons_prefix_cons]; exact ⟨rfl, h2⟩⟩

theorem splitDot_infix {s : Bytes} : ∀ {l : Bytes}, dot ∉ l → l <:+: s → ∃ p ∈ splitDot s, l <:+: p := by
  induction s with
  | nil => intro l _ hp; exact ⟨[], by simp [splitDot], hp⟩
  | cons b bs ih =>
    intro l hl hp
    rw [List.infix_cons_iff] at hp
    rcases hp with hp | hp
    · obtain ⟨p, ps, h1, h2⟩ := splitDot_head_prefix hl hp
      exact ⟨p, by simp [h1], h2.isInfix⟩
    · obtain ⟨p, h1, h2⟩ := ih hl hp
      by_cases hb : b = dot
      · subst hb; exact ⟨p, by rw [splitDot_cons_dot]; simp [h1], h2⟩
      · obtain ⟨l', ls', h3, h4⟩ := splitDot_cons_ne hb bs
        rw [h3] at h1; rw [h4]
        simp only [List.mem_cons] at h1
        rcases h1 with rfl | h1
        · exact ⟨b :: p, by simp, h2.trans (List.suffix_cons b p).isInfix⟩
        · exact ⟨p, by simp [h1], h2⟩

theorem splitDot_piece_infix {s p : Bytes} (hp : p ∈ splitDot s) : p <:+: s := by
  induction s generalizing p with
  | nil => simp [splitDot] at hp; subst hp; exact List.infix_refl _
  | cons b bs ih =>
    by_cases hb : b = dot
    · subst hb; rw [splitDot_cons_dot] at hp
      simp only [List.mem_cons] at hp
      rcases hp with rfl | hp
      · exact List.nil_infix
      · exact (ih hp).trans (List.suffix_cons _ _).isInfix
    · -- the first piece is a prefix
      obtain ⟨l, ls, h1, h2⟩ := splitDot_join (b :: bs)
      obtain ⟨l', ls', h3, h4⟩ := splitDot_cons_ne hb bs
      rw [h4] at hp h1
      injection h1 with h5 h6
      simp only [List.mem_cons] at hp
      rcases hp with rfl | hp
      · rw [h2, ← h5]; exact (List.prefix_append _ _).isInfix
      · exact (ih (by rw [h3]; simp [hp])).trans (List.suffix_cons _ _).isInfix

theorem splitDot_labels_iff (s : Bytes) :
    (∀ p ∈ splitDot s, p.length ≤ 63) ↔
      ∀ pre label post, s = pre ++ label ++ post → (46 : UInt8) ∉ label → label.length ≤ 63 := by
  constructor
  · intro h pre label post hs hl
    obtain ⟨p, h1, h2⟩ := splitDot_infix (s := s) hl ⟨pre, post, hs.symm⟩
    exact Nat.le_trans h2.length_le (h p h1)
  · intro h p hp
    obtain ⟨pre, post, hs⟩ := splitDot_piece_infix hp
    exact h pre p post hs.symm (splitDot_pieces_nodot s p hp)

/-! ### lower case -/

theorem lowerByte_eq_foldCase (c : UInt8) : lowerByte c = foldCase c := by
  simp only [lowerByte, foldCase, UInt8.le_iff_toNat_le, Bool.and_eq_true, decide_eq_true_eq]
  rfl

theorem lowerByte_props : ∀ c : Fin 256,
    lowerByte (lowerByte (UInt8.ofFin c)) = lowerByte (UInt8.ofFin c) ∧
    (lowerByte (UInt8.ofFin c) = 46 ↔ UInt8.ofFin c = 46) ∧
    ((33 ≤ (UInt8.ofFin c).toNat ∧ (UInt8.ofFin c).toNat ≤ 126 ∧ (UInt8.ofFin c).toNat ≠ 34) ↔
      (33 ≤ (lowerByte (UInt8.ofFin c)).toNat ∧ (lowerByte (UInt8.ofFin c)).toNat ≤ 126 ∧
        (lowerByte (UInt8.ofFin c)).toNat ≠ 34)) ∧
    ¬ (65 ≤ (lowerByte (UInt8.ofFin c)).toNat ∧ (lowerByte (UInt8.ofFin c)).toNat ≤ 90) ∧
    (¬ (65 ≤ (UInt8.ofFin c).toNat ∧ (UInt8.ofFin c).toNat ≤ 90) → lowerByte (UInt8.ofFin c) = UInt8.ofFin c) := by
  decide +kernel

theorem lowerByte_idem (c : UInt8) : lowerByte (lowerByte c) = lowerByte c := (lowerByte_props c.toFin).1

theorem lowerByte_dot (c : UInt8) : lowerByte c = 46 ↔ c = 46 := (lowerByte_props c.toFin).2.1

theorem lowerByte_printable (c : UInt8) : (33 ≤ c.toNat ∧ c.toNat ≤ 126 ∧ c.toNat ≠ 34) ↔
    (33 ≤ (lowerByte c).toNat ∧ (lowerByte c).toNat ≤ 126 ∧ (lowerByte c).toNat ≠ 34) := (lowerByte_props c.toFin).2.2.1

theorem lowerByte_notUpper (c : UInt8) : ¬ (65 ≤ (lowerByte c).toNat ∧ (lowerByte c).toNat ≤ 90) :=
  (lowerByte_props c.toFin).2.2.2.1

theorem lowerByte_of_notUpper {c : UInt8} (h : ¬ (65 ≤ c.toNat ∧ c.toNat ≤ 90)) : lowerByte c = c :=
  (lowerByte_props c.toFin).2.2.2.2 h

theorem lower_idem (s : Bytes) : lower (lower s) = lower s := by
  simp [lower, lowerByte_idem]

@[simp] theorem lower_length (s : Bytes) : (lower s).length = s.length := by simp [lower]

theorem lower_append (a b : Bytes) : lower (a ++ b) = lower a ++ lower b := by simp [lower]

theorem dot_mem_lower (s : Bytes) : (46 : UInt8) ∈ lower s ↔ 46 ∈ s := by
  simp only [lower, List.mem_map, lowerByte_dot]
  constructor
  · rintro ⟨a, h, rfl⟩; exact h
  · intro h; exact ⟨46, h, rfl⟩

theorem isGraphic_iff (c : UInt8) : (isGraphic c = true ∧ c ≠ 34) ↔ (33 ≤ c.toNat ∧ c.toNat ≤ 126 ∧ c.toNat ≠ 34) := by
  simp only [isGraphic, Bool.and_eq_true, decide_eq_true_eq, UInt8.le_iff_toNat_le, Ne, ← UInt8.toNat_inj, and_assoc]
  rfl

/-! ### `tryFrom` -/

theorem tryFrom_eq (s : Bytes) [Decidable (NameText s)] :
    Name.tryFrom s = if NameText s then some ⟨lower s⟩ else none := by
  unfold Name.tryFrom
  split
  · rename_i h
    rw [if_neg]
    rintro ⟨⟨t, ht⟩, -, -, -⟩
    simp [ht] at h
  split
  · rename_i h1 h
    rw [if_neg]
    rintro ⟨⟨t, ht⟩, -, -, -⟩
    simp [ht] at h
  split
  · rename_i h
    rw [if_neg]
    rintro ⟨-, h', -, -⟩; omega
  split
  · rename_i h
    rw [if_neg]
    rintro ⟨-, -, h', -⟩
    simp only [List.any_eq_true, Bool.or_eq_true, Bool.not_eq_true', beq_iff_eq] at h
    obtain ⟨c, hc, h⟩ := h
    have := (isGraphic_iff c).mpr (h' c hc)
    simp_all
  split
  · rename_i h
    rw [if_neg]
    rintro ⟨-, -, -, h'⟩
    rw [← splitDot_labels_iff] at h'
    simp only [List.any_eq_true, decide_eq_true_eq] at h
    obtain ⟨c, hc, h⟩ := h
    have := h' c hc
    omega
  · rename_i h1 h2 h3 h4 h5
    rw [if_pos]
    refine ⟨?_, by omega, ?_, ?_⟩
    · rcases List.eq_nil_or_concat s with h | ⟨t, c, h⟩
      · simp [h] at h1
      · refine ⟨t, ?_⟩
        subst h
        simp at h2
        rw [List.concat_eq_append, h2]
    · intro c hc
      apply (isGraphic_iff c).mp
      simp only [List.any_eq_true, Bool.or_eq_true, Bool.not_eq_true', beq_iff_eq, not_exists, not_and, not_or] at h4
      have := h4 c hc
      simp_all
    · rw [← splitDot_labels_iff]
      simp only [List.any_eq_true, decide_eq_true_eq, not_exists, not_and] at h5
      intro p hp
      have := h5 p hp
      omega

theorem tryFrom_iff (s : Bytes) (n : Name) : Name.tryFrom s = some n ↔ NameText s ∧ n.bytes = lower s := by
  classical
  rw [tryFrom_eq]
  split
  · rename_i h
    simp only [h, true_and, Option.some.injEq]
    constructor
    · rintro rfl; rfl
    · intro e; cases n; simp_all
  · rename_i h
    simp [h]

theorem infix_map_lower {s pre l post : Bytes} (h : lower s = pre ++ l ++ post) :
    ∃ pre' l' post', s = pre' ++ l' ++ post' ∧ lower l' = l := by
  have h1 : s = s.take (pre.length) ++ (s.drop pre.length).take l.length ++ (s.drop pre.length).drop l.length := by
    rw [List.append_assoc, List.take_append_drop, List.take_append_drop]
  refine ⟨_, _, _, h1, ?_⟩
  simp only [lower, List.map_take, List.map_drop]
  have : s.map lowerByte = pre ++ l ++ post := h
  rw [this]; simp

theorem Spec.NameText.lower {s : Bytes} (h : NameText s) : NameText (Dnssec.lower s) := by
  obtain ⟨⟨t, ht⟩, h2, h3, h4⟩ := h
  refine ⟨⟨Dnssec.lower t, by rw [ht, lower_append]; rfl⟩, by simpa using h2, ?_, ?_⟩
  · intro c hc
    simp only [Dnssec.lower, List.mem_map] at hc
    obtain ⟨a, ha, rfl⟩ := hc
    exact (lowerByte_printable a).mp (h3 a ha)
  · intro pre l post e hl
    obtain ⟨p', l', q', e', rfl⟩ := infix_map_lower e
    rw [dot_mem_lower] at hl
    simpa using h4 p' l' q' e' hl

/-! ### names with labels -/

theorem Spec.Label.nodot {l : Bytes} (h : Label l) : dot ∉ l := by
  intro hd; exact (h.chars _ hd).2.2.2.1 rfl

theorem Spec.Label.lower {l : Bytes} (h : Label l) : Dnssec.lower l = l := by
  have : ∀ c ∈ l, lowerByte c = c := fun c hc => lowerByte_of_notUpper (h.chars c hc).2.2.2.2
  simpa [Dnssec.lower] using List.map_congr_left (f := lowerByte) (g := id) this

theorem text_ne_nil {ls : List Bytes} (h : ls ≠ []) : text ls = (ls.map (fun l => l ++ [dot])).flatten := by
  simp [text, h]

theorem text_cons {l : Bytes} {ls : List Bytes} (h : ls ≠ []) : text (l :: ls) = l ++ dot :: text ls := by
  simp [text, h]

theorem text_nonroot {ls : List Bytes} (h : ls ≠ []) (hl : ∀ l ∈ ls, Label l) : text ls ≠ [dot] := by
  cases ls with
  | nil => exact absurd rfl h
  | cons l ls =>
    have := (hl l (by simp)).nonempty
    cases l with
    | nil => exact absurd rfl this
    | cons c cs =>
      intro e
      have := congrArg List.length e
      simp [text] at this

theorem splitDot_text {ls : List Bytes} (h : ls ≠ []) (hl : ∀ l ∈ ls, Label l) : splitDot (text ls) = ls ++ [[]] := by
  rw [text_ne_nil h]; exact splitDot_flatten (fun l h => (hl l h).nodot)

theorem lower_text {ls : List Bytes} (hl : ∀ l ∈ ls, Label l) : lower (text ls) = text ls := by
  by_cases h : ls = []
  · subst h; rfl
  · rw [text_ne_nil h]
    clear h
    induction ls with
    | nil => rfl
    | cons l ls ih =>
      simp only [List.map_cons, List.flatten_cons, lower_append]
      rw [ih (fun x hx => hl x (by simp [hx])), (hl l (by simp)).lower]
      rfl

theorem writeName_text {ls : List Bytes} (hl : ∀ l ∈ ls, Label l) : writeName (text ls) = wire ls := by
  unfold writeName
  simp only [lower_text hl]
  by_cases h : ls = []
  · subst h; rfl
  · rw [if_neg (text_nonroot h hl), splitDot_text h hl]
    simp [wire]

theorem Spec.HasLabels.writeName {n : Name} {ls : List Bytes} (h : HasLabels n ls) : writeName n.bytes = wire ls := by
  rw [h.bytes]; exact writeName_text h.labels

/-- Length of the wire form. -/
theorem wire_length (ls : List Bytes) : (wire ls).length = (ls.map (fun l => l.length + 1)).sum + 1 := by
  simp [wire, List.length_flatten, List.map_map, Function.comp_def]

theorem text_length {ls : List Bytes} (h : ls ≠ []) : (text ls).length = (ls.map (fun l => l.length + 1)).sum := by
  simp [text, h, List.length_flatten, List.map_map, Function.comp_def]

theorem Spec.HasLabels.wire_length_le {n : Name} {ls : List Bytes} (h : HasLabels n ls) : (wire ls).length ≤ 256 := by
  by_cases he : ls = []
  · subst he; simp [wire]
  · rw [wire_length, ← text_length he, ← h.bytes]; have := h.short; omega

theorem foldl_len (ls : List Bytes) (a : Nat) :
    ls.foldl (fun res label => res + (1 + label.length)) a = a + (ls.map (fun l => l.length + 1)).sum := by
  induction ls generalizing a with
  | nil => simp
  | cons l ls ih => simp only [List.foldl_cons, ih, List.map_cons, List.sum_cons]; omega

theorem Spec.HasLabels.nameLen {n : Name} {ls : List Bytes} (h : HasLabels n ls) :
    nameLen n = UInt16.ofNat (wire ls).length := by
  unfold Dnssec.nameLen
  by_cases he : ls = []
  · subst he; rw [if_pos (by rw [h.bytes]; rfl)]; rfl
  · rw [if_neg (by rw [h.bytes]; exact text_nonroot he h.labels), h.bytes, splitDot_text he h.labels, foldl_len,
      wire_length]
    simp

theorem text_injective {ls ms : List Bytes} (h1 : ∀ l ∈ ls, Label l) (h2 : ∀ l ∈ ms, Label l) (h : text ls = text ms) :
    ls = ms := by
  by_cases e1 : ls = []
  · subst e1
    by_cases e2 : ms = []
    · exact e2.symm
    · exact absurd h.symm (text_nonroot e2 h2)
  · by_cases e2 : ms = []
    · subst e2; exact absurd h (text_nonroot e1 h1)
    · have a := splitDot_text e1 h1
      have b := splitDot_text e2 h2
      rw [h, b] at a
      exact (List.append_cancel_right a).symm

theorem Spec.HasLabels.unique {n : Name} {ls ms : List Bytes} (h1 : HasLabels n ls) (h2 : HasLabels n ms) : ls = ms :=
  text_injective h1.labels h2.labels (h1.bytes.symm.trans h2.bytes)

theorem text_nameText {ls : List Bytes} (hl : ∀ l ∈ ls, Label l) (hlen : (text ls).length ≤ 255) :
    NameText (text ls) := by
  by_cases he : ls = []
  · subst he
    refine ⟨⟨[], rfl⟩, hlen, by simp [text], ?_⟩
    intro pre l post e _
    have := congrArg List.length e
    simp [text] at this; omega
  · refine ⟨?_, hlen, ?_, ?_⟩
    · rcases List.eq_nil_or_concat ls with h | ⟨t, c, h⟩
      · exact absurd h he
      · subst h
        refine ⟨(t.map (fun l => l ++ [46])).flatten ++ c, ?_⟩
        simp [text]
    · intro c hc
      simp only [text, he, if_false, List.mem_flatten, List.mem_map] at hc
      obtain ⟨_, ⟨l, hl', rfl⟩, hc⟩ := hc
      simp only [List.mem_append, List.mem_singleton] at hc
      rcases hc with hc | rfl
      · have := (hl l hl').chars c hc; exact ⟨this.1, this.2.1, this.2.2.1⟩
      · decide
    · rw [← splitDot_labels_iff, splitDot_text he hl]
      intro p hp
      simp only [List.mem_append, List.mem_singleton] at hp
      rcases hp with hp | rfl
      · exact (hl p hp).short
      · simp

theorem tryFrom_text {ls : List Bytes} (hl : ∀ l ∈ ls, Label l) (hlen : (text ls).length ≤ 255) :
    Name.tryFrom (text ls) = some ⟨text ls⟩ := by
  rw [tryFrom_iff]
  exact ⟨text_nameText hl hlen, (lower_text hl).symm⟩

theorem tryFrom_denotes (s : Bytes) (n : Name) : Name.tryFrom s = some n ↔ Denotes s n := by
  rw [tryFrom_iff, show lower s = s.map foldCase from List.map_congr_left (fun c _ => lowerByte_eq_foldCase c)]
  rfl

theorem tryFrom_none (s : Bytes) : Name.tryFrom s = none ↔ ¬ NameText s := by
  constructor
  · intro h ht
    rw [(tryFrom_denotes s ⟨s.map foldCase⟩).mpr ⟨ht, rfl⟩] at h
    exact nomatch h
  · intro h
    cases hs : Name.tryFrom s with
    | none => rfl
    | some n => exact absurd ((tryFrom_denotes s n).mp hs).1 h

instance (s : Bytes) (n : Name) : Decidable (Denotes s n) := decidable_of_iff _ (tryFrom_denotes s n)

theorem obtainable_of {s : Bytes} {n : Name} (h : Name.tryFrom s = some n) : Obtainable n := ⟨s, (tryFrom_denotes s n).mp h⟩

theorem Spec.HasLabels.obtainable {n : Name} {ls : List Bytes} (h : HasLabels n ls) : Obtainable n := by
  refine obtainable_of (s := text ls) ?_
  rw [tryFrom_text h.labels (by rw [← h.bytes]; exact h.short)]
  cases n; simp [h.bytes.symm]

theorem Spec.Obtainable.nameText {n : Name} (h : Obtainable n) : NameText n.bytes ∧ lower n.bytes = n.bytes := by
  obtain ⟨s, hs⟩ := h
  rw [← tryFrom_denotes, tryFrom_iff] at hs
  rw [hs.2]
  exact ⟨hs.1.lower, lower_idem s⟩

theorem lower_eq_self_notUpper {s : Bytes} (h : lower s = s) : ∀ c ∈ s, ¬ (65 ≤ c.toNat ∧ c.toNat ≤ 90) := by
  intro c hc
  rw [← h] at hc
  simp only [lower, List.mem_map] at hc
  obtain ⟨a, -, rfl⟩ := hc
  exact lowerByte_notUpper a

/-- Every obtainable name without empty labels is described by its labels. -/
theorem Spec.Obtainable.hasLabels {n : Name} (h : Obtainable n) (he : NoEmptyLabel n) : ∃ ls, HasLabels n ls := by
  obtain ⟨ht, hlow⟩ := h.nameText
  have hup := lower_eq_self_notUpper hlow
  rcases he with he | ⟨he1, he2⟩
  · exact ⟨[], by simp, he, ht.short⟩
  obtain ⟨t, hs⟩ := ht.endsInDot
  obtain ⟨l, ls, hsp, hj⟩ := splitDot_join t
  have hsplit : splitDot t = l :: ls := hsp
  -- labels of n are the pieces of t
  have hflat : ∀ (l : Bytes) (ls : List Bytes), l ++ (ls.map (fun l => dot :: l)).flatten ++ [dot] =
      ((l :: ls).map (fun l => l ++ [dot])).flatten := by
    intro l ls
    induction ls generalizing l with
    | nil => simp
    | cons m ms ih =>
      have := ih m
      simp only [List.map_cons, List.flatten_cons, List.append_assoc] at this ⊢
      rw [← this]; simp
  have hb : n.bytes = text (l :: ls) := by
    rw [hs, hj, text_ne_nil (by simp)]; exact hflat l ls
  refine ⟨l :: ls, ?_, hb, ht.short⟩
  intro p hp
  have hpi : p <:+: t := splitDot_piece_infix (by rw [hsplit]; exact hp)
  have hpn : p <:+: n.bytes := by rw [hs]; exact hpi.trans (List.prefix_append _ _).isInfix
  have hnd := splitDot_pieces_nodot t p (by rw [hsplit]; exact hp)
  refine ⟨?_, ?_, ?_⟩
  · -- non-empty
    rintro rfl
    simp only [List.mem_cons] at hp
    rcases hp with rfl | hp
    · exact he1 _ (by rw [hb]; simp [text]; rfl)
    · obtain ⟨a, b, rfl⟩ := List.append_of_mem hp
      rcases List.eq_nil_or_concat a with ha | ⟨a', x, ha⟩
      · subst ha
        apply he2 l ((b.map (fun l => l ++ [46])).flatten)
        rw [hb]; simp [text]
      · subst ha
        apply he2 (l ++ [46] ++ (a'.map (fun l => l ++ [46])).flatten ++ x) ((b.map (fun l => l ++ [46])).flatten)
        rw [hb]; simp [text]
  · obtain ⟨a, b, e⟩ := hpn
    exact ht.labels a p b e.symm hnd
  · intro c hc
    have hcn : c ∈ n.bytes := hpn.subset hc
    have h3 := ht.printable c hcn
    refine ⟨h3.1, h3.2.1, h3.2.2, ?_, hup c hcn⟩
    intro e
    have : c = dot := by rw [← UInt8.toNat_inj]; exact e
    subst this; exact hnd hc

end Dnssec
