import Verif.Proofs.Reads
import Verif.Proofs.BitmapMeaning
import Verif.Proofs.Parsed
import Verif.Spec.Records

/-! # Which RDATA are written back as they were read -/

namespace Dnssec

open Spec

/-! ### Names -/

theorem Decodes_functional {msg : Bytes} {k : Nat} {inp t rest : Bytes} (h : Decodes msg k inp t rest) :
    ∀ {t' rest' : Bytes}, Decodes msg k inp t' rest' → t = t' ∧ rest = rest' := by
  induction h with
  | stop k rest =>
    intro t' rest' h'
    generalize hi : (0 :: rest : Bytes) = inp at h'
    cases h' with
    | stop => simp at hi; exact ⟨rfl, hi⟩
    | label _ len l _ _ _ h1 h2 =>
      obtain ⟨rfl, _⟩ := List.cons.inj hi
      have := List.length_pos_iff.mpr h1
      simp at h2; omega
    | pointer _ hi' lo _ _ _ h1 =>
      obtain ⟨rfl, _⟩ := List.cons.inj hi
      simp at h1
  | label k len l inp text rest h1 h2 h3 _ ih =>
    intro t' rest' h'
    generalize hi : (len :: (l ++ inp) : Bytes) = inp' at h'
    cases h' with
    | stop =>
      obtain ⟨rfl, _⟩ := List.cons.inj hi
      have := List.length_pos_iff.mpr h1
      simp at h2; omega
    | label _ len' l' inp'' text' _ g1 g2 g3 g4 =>
      obtain ⟨rfl, hi2⟩ := List.cons.inj hi
      have hlen : l.length = l'.length := by omega
      obtain ⟨rfl, rfl⟩ := List.append_inj hi2 hlen
      obtain ⟨rfl, rfl⟩ := ih g4
      exact ⟨rfl, rfl⟩
    | pointer _ _ lo _ _ _ g1 =>
      obtain ⟨rfl, _⟩ := List.cons.inj hi
      omega
  | pointer k hi lo text rest rest' h1 h2 _ ih =>
    intro t' r' h'
    generalize hi' : (hi :: lo :: rest : Bytes) = inp' at h'
    generalize hk : k + 1 = k' at h'
    cases h' with
    | stop =>
      obtain ⟨rfl, _⟩ := List.cons.inj hi'
      simp at h1
    | label _ len' l' inp'' text' _ g1 g2 g3 g4 =>
      obtain ⟨rfl, _⟩ := List.cons.inj hi'
      omega
    | pointer k'' _ _ _ _ _ g1 g2 g3 =>
      simp only [List.cons.injEq] at hi'
      obtain ⟨rfl, rfl, rfl⟩ := hi'
      obtain rfl : k = k'' := by omega
      exact ⟨(ih g3).1, rfl⟩

theorem cutAtDots_ne_nil (s : Bytes) : cutAtDots s ≠ [] := by
  induction s with
  | nil => simp [cutAtDots]
  | cons c s ih =>
    rw [cutAtDots]
    cases h : cutAtDots s with
    | nil => exact absurd h ih
    | cons p ps => simp only; split <;> simp

theorem cutAtDots_append (a b : Bytes) : cutAtDots (a ++ 46 :: b) = cutAtDots a ++ cutAtDots b := by
  induction a with
  | nil =>
    cases h : cutAtDots b with
    | nil => exact absurd h (cutAtDots_ne_nil b)
    | cons p ps =>
      have e : cutAtDots ([] ++ 46 :: b) = match cutAtDots b with
        | part :: parts => if (46 : UInt8) = 46 then [] :: part :: parts else (46 :: part) :: parts
        | [] => [] := rfl
      rw [e, h]
      rfl
  | cons c a ih =>
    rw [List.cons_append, cutAtDots, ih, cutAtDots]
    cases h : cutAtDots a with
    | nil => exact absurd h (cutAtDots_ne_nil a)
    | cons p ps => simp only [List.cons_append]; split <;> rfl

/-- Parts preceded by their lengths. -/
def prefixed (ps : List Bytes) : Bytes := (ps.map (fun l => UInt8.ofNat l.length :: l)).flatten

theorem prefixed_append (a b : List Bytes) : prefixed (a ++ b) = prefixed a ++ prefixed b := by simp [prefixed]

theorem cutAtDots_length (s : Bytes) : (prefixed (cutAtDots s)).length = s.length + 1 := by
  induction s with
  | nil => rfl
  | cons c s ih =>
    rw [cutAtDots]
    cases h : cutAtDots s with
    | nil => exact absurd h (cutAtDots_ne_nil s)
    | cons p ps =>
      rw [h] at ih
      simp only
      split
      · simp only [prefixed, List.map_cons, List.flatten_cons, List.length_append, List.length_cons, List.length_nil] at ih ⊢; omega
      · simp only [prefixed, List.map_cons, List.flatten_cons, List.length_append, List.length_cons] at ih ⊢; omega

theorem cutAtDots_first (s : Bytes) : ∃ p ps, cutAtDots s = p :: ps ∧ p.length ≤ s.length ∧
    (p.length = s.length → p = s ∧ ps = [] ∧ 46 ∉ s) := by
  induction s with
  | nil => exact ⟨[], [], rfl, Nat.le_refl _, fun _ => ⟨rfl, rfl, by simp⟩⟩
  | cons c s ih =>
    obtain ⟨p, ps, h1, h2, h3⟩ := ih
    rw [cutAtDots, h1]
    simp only
    by_cases hc : c = 46
    · rw [if_pos hc]
      exact ⟨[], p :: ps, rfl, by simp, fun h => by simp at h⟩
    · rw [if_neg hc]
      refine ⟨c :: p, ps, rfl, by simp; omega, fun h => ?_⟩
      obtain ⟨rfl, rfl, h4⟩ := h3 (by simpa using h)
      refine ⟨rfl, rfl, ?_⟩
      simp only [List.mem_cons, not_or]
      exact ⟨fun h => hc h.symm, h4⟩

theorem foldCase_foldCase (c : UInt8) : foldCase (foldCase c) = foldCase c := by
  have : ∀ c : Fin 256, foldCase (foldCase (UInt8.ofNat c.val)) = foldCase (UInt8.ofNat c.val) := by decide +kernel
  have := this ⟨c.toNat, c.toNat_lt⟩
  simpa using this

theorem foldCase_eq_dot (c : UInt8) : foldCase c = 46 ↔ c = 46 := by
  have : ∀ c : Fin 256, foldCase (UInt8.ofNat c.val) = 46 ↔ UInt8.ofNat c.val = 46 := by decide +kernel
  have := this ⟨c.toNat, c.toNat_lt⟩
  simpa using this

theorem foldCase_fixed (c : UInt8) : foldCase c = c ↔ ¬ (65 ≤ c.toNat ∧ c.toNat ≤ 90) := by
  have : ∀ c : Fin 256, foldCase (UInt8.ofNat c.val) = UInt8.ofNat c.val ↔
      ¬ (65 ≤ (UInt8.ofNat c.val).toNat ∧ (UInt8.ofNat c.val).toNat ≤ 90) := by decide +kernel
  have := this ⟨c.toNat, c.toNat_lt⟩
  simpa using this

theorem map_fold_fold (s : Bytes) : (s.map foldCase).map foldCase = s.map foldCase := by
  rw [List.map_map]
  apply List.map_congr_left
  intro c _
  exact foldCase_foldCase c

/-- The text of labels. -/
def joinDots (ls : List Bytes) : Bytes := (ls.map (fun l => l ++ [46])).flatten

theorem nameWire_text (ls : List Bytes) (h : ∀ l ∈ ls, l ≠ []) :
    nameWire ((text ls).map foldCase) = prefixed (cutAtDots ((joinDots ls).map foldCase)) := by
  unfold nameWire text
  cases ls with
  | nil => rfl
  | cons l ls =>
    have hc : (joinDots (l :: ls)).map foldCase ≠ [46] := by
      intro hc
      have := List.length_pos_iff.mpr (h l (by simp))
      have hc := congrArg List.length hc
      simp only [joinDots, List.map_cons, List.flatten_cons, List.length_map, List.length_append, List.length_cons, List.length_nil] at hc
      omega
    rw [if_neg (List.cons_ne_nil l ls)]
    show (if (joinDots (l :: ls)).map foldCase = [46] then [0] else _) = _
    rw [if_neg hc, map_fold_fold]
    rfl

theorem wire_dotted_length (ls : List Bytes) : (wire ls).length = (joinDots ls).length + 1 := by
  induction ls with
  | nil => rfl
  | cons l ls ih => simp only [wire, joinDots, List.map_cons, List.flatten_cons, List.length_append, List.length_cons, List.length_nil] at ih ⊢; omega

theorem prefixed_wire (ls : List Bytes) (hl : ∀ l ∈ ls, l ≠ [] ∧ l.length < 192)
    (h : prefixed (cutAtDots ((joinDots ls).map foldCase)) = wire ls) : ∀ l ∈ ls, 46 ∉ l ∧ l.map foldCase = l := by
  induction ls with
  | nil => simp
  | cons l ls ih =>
    have e : (joinDots (l :: ls)).map foldCase = l.map foldCase ++ 46 :: (joinDots ls).map foldCase := by
      simp [joinDots, foldCase]
    rw [e, cutAtDots_append, prefixed_append] at h
    obtain ⟨p, ps, h1, h2, h3⟩ := cutAtDots_first (l.map foldCase)
    have hll := hl l (by simp)
    rw [h1] at h
    simp only [prefixed, wire, List.map_cons, List.flatten_cons, List.cons_append, List.append_assoc, List.cons.injEq] at h
    rw [List.length_map] at h2 h3
    have hlen : p.length = l.length := by
      have := congrArg UInt8.toNat h.1
      rw [UInt8.toNat_ofNat', UInt8.toNat_ofNat'] at this
      omega
    obtain ⟨rfl, rfl, h4⟩ := h3 hlen
    obtain ⟨h5, h6⟩ := List.append_inj h.2 hlen
    simp only [List.map_nil, List.flatten_nil, List.nil_append] at h6
    intro x hx
    rcases List.mem_cons.mp hx with rfl | hx
    · exact ⟨by rw [h5] at h4; exact h4, h5⟩
    · exact ih (fun y hy => hl y (by simp [hy])) h6 x hx

theorem label_of_text {ls : List Bytes} (hne : ls ≠ []) (ht : NameText (text ls)) {l : Bytes} (hl : l ∈ ls) (h0 : l ≠ []) (h1 : 46 ∉ l)
    (h2 : l.map foldCase = l) : Label l := by
  have hd : text ls = joinDots ls := by unfold text; rw [if_neg hne]; rfl
  obtain ⟨a, b, rfl⟩ := List.append_of_mem hl
  have e : text (a ++ l :: b) = joinDots a ++ l ++ (46 :: joinDots b) := by rw [hd]; simp [joinDots]
  refine ⟨h0, ht.labels _ l _ e h1, ?_⟩
  intro c hc
  obtain ⟨p1, p2, p3⟩ := ht.printable c (by rw [e]; simp [hc])
  refine ⟨p1, p2, p3, ?_, ?_⟩
  · intro h46
    apply h1
    have : c = 46 := UInt8.toNat_inj.mp (by simpa using h46)
    rw [← this]; exact hc
  · rw [← foldCase_fixed]
    obtain ⟨i, hi, rfl⟩ := List.getElem_of_mem hc
    have := congrArg (fun x => x[i]?) h2
    simpa [hi] using this

theorem readsName_canonical {data : Bytes} {n : Name} {rest : Bytes} (h : ReadsName [] data n rest) (x : Bytes) :
    nameWire n.bytes ++ x = data ↔ x = rest ∧ ∃ ls, (∀ l ∈ ls, Label l) ∧ data = wire ls ++ rest := by
  obtain ⟨t, h1, h2, h3⟩ := h
  constructor
  · intro e
    obtain ⟨ls, g1, g2, g3⟩ := Decodes_nil_labels rfl (by decide) h1
    have g4 : orRoot t = text ls := by rw [g3, orRoot_flatten]
    rw [g4] at h2 h3
    rw [h3, nameWire_text ls (fun l hl => (g1 l hl).1), g2] at e
    obtain ⟨e1, e2⟩ := List.append_inj e (by rw [cutAtDots_length, wire_dotted_length, List.length_map])
    refine ⟨e2, ls, ?_, g2⟩
    intro l hl
    obtain ⟨f1, f2⟩ := prefixed_wire ls g1 e1 l hl
    exact label_of_text (List.ne_nil_of_mem hl) h2 hl (g1 l hl).1 f1 f2
  · rintro ⟨rfl, ls, g1, g2⟩
    rw [g2] at h1
    obtain ⟨rfl, _⟩ := Decodes_functional h1 (Decodes_wire [] 255 ls g1 x)
    rw [orRoot_flatten] at h2 h3
    have hl : HasLabels ⟨text ls⟩ ls := ⟨g1, rfl, h2.short⟩
    have : n = ⟨text ls⟩ := by
      cases n
      simp only [Name.mk.injEq]
      simp only at h3
      rw [h3, ← lower_eq_map_fold, lower_text g1]
    rw [this, nameWire_labels hl, g2]

/-! ### Bitmaps -/

theorem maskWindows_range (ws : List (Nat × Bytes)) (f : Nat → Bytes) (k : Nat) : ∀ s, (∀ w ∈ ws, s ≤ w.1 ∧ w.1 < s + k) →
    ws.Pairwise (fun a b => a.1 < b.1) → (∀ w ∈ ws, w.2 ≠ [] ∧ f w.1 = w.2) →
    (∀ i, s ≤ i → (∀ w ∈ ws, w.1 ≠ i) → f i = []) →
    (List.range' s k).filterMap (fun i => if f i = [] then none else some (i, f i)) = ws := by
  induction k generalizing ws with
  | zero =>
    intro s h1 _ _ _
    cases ws with
    | nil => rfl
    | cons w ws => have := h1 w (by simp); omega
  | succ k ih =>
    intro s h1 h2 h3 h4
    rw [List.range'_succ, List.filterMap_cons]
    cases ws with
    | nil =>
      rw [h4 s (Nat.le_refl _) (by simp)]
      simp only [if_true]
      exact ih [] (s + 1) (by simp) .nil (by simp) (fun i hi _ => h4 i (by omega) (by simp))
    | cons w ws =>
      obtain ⟨a1, a2⟩ := h1 w (by simp)
      obtain ⟨p1, p2⟩ := List.pairwise_cons.mp h2
      by_cases hs : w.1 = s
      · obtain ⟨b1, b2⟩ := h3 w (by simp)
        rw [hs] at b2
        rw [b2, if_neg b1]
        simp only
        rw [ih ws (s + 1) ?_ p2 (fun x hx => h3 x (by simp [hx])) ?_]
        · rw [← hs]
        · intro x hx
          have := p1 x hx
          have := h1 x (by simp [hx])
          omega
        · intro i hi hx
          apply h4 i (by omega)
          intro x hx'
          rcases List.mem_cons.mp hx' with rfl | hx'
          · omega
          · exact hx x hx'
      · have : f s = [] := h4 s (Nat.le_refl _) (by
          intro x hx
          rcases List.mem_cons.mp hx with rfl | hx
          · exact hs
          · have := p1 x hx; omega)
        rw [this]
        simp only [if_true]
        refine ih (w :: ws) (s + 1) ?_ h2 h3 (fun i hi => h4 i (by omega))
        intro x hx
        have := h1 x hx
        rcases List.mem_cons.mp hx with rfl | hx
        · omega
        · have := p1 x hx; omega

theorem bitmapOctet_of_mem {ws : List (Nat × Bytes)} (hp : ws.Pairwise (fun a b => a.1 < b.1)) (hs : ∀ w ∈ ws, w.2.length ≤ 32)
    {w : Nat × Bytes} (hw : w ∈ ws) {j : Nat} (hj : j < 32) : bitmapOctet ws (32 * w.1 + j) = w.2[j]?.getD 0 := by
  unfold bitmapOctet
  obtain ⟨a, b, rfl⟩ := List.append_of_mem hw
  have none : ∀ (l : List (Nat × Bytes)), (∀ x ∈ l, x.1 ≠ w.1 ∧ x.2.length ≤ 32) → ∀ z,
      l.foldl (fun b x => if 32 * x.1 ≤ 32 * w.1 + j then (x.2[32 * w.1 + j - 32 * x.1]?).getD b else b) z = z := by
    intro l
    induction l with
    | nil => intro _ z; rfl
    | cons x l ih =>
      intro h z
      rw [List.foldl_cons, ih (fun y hy => h y (by simp [hy]))]
      obtain ⟨h1, h2⟩ := h x (by simp)
      split
      · rw [List.getElem?_eq_none (by omega)]; rfl
      · rfl
  rw [List.pairwise_append] at hp
  obtain ⟨_, p2, p3⟩ := hp
  obtain ⟨p4, _⟩ := List.pairwise_cons.mp p2
  rw [List.foldl_append, List.foldl_cons, none a (fun x hx => ⟨by have := p3 x hx w (by simp); omega, hs x (by simp [hx])⟩),
    none b (fun x hx => ⟨by have := p4 x hx; omega, hs x (by simp [hx])⟩), if_pos (by omega)]
  rw [show 32 * w.1 + j - 32 * w.1 = j by omega]

theorem bitmapOctet_of_not_mem {ws : List (Nat × Bytes)} (hs : ∀ w ∈ ws, w.2.length ≤ 32)
    {i : Nat} (hi : ∀ w ∈ ws, w.1 ≠ i) {j : Nat} (hj : j < 32) : bitmapOctet ws (32 * i + j) = 0 := by
  unfold bitmapOctet
  have none : ∀ (l : List (Nat × Bytes)), (∀ x ∈ l, x.1 ≠ i ∧ x.2.length ≤ 32) → ∀ z,
      l.foldl (fun b x => if 32 * x.1 ≤ 32 * i + j then (x.2[32 * i + j - 32 * x.1]?).getD b else b) z = z := by
    intro l
    induction l with
    | nil => intro _ z; rfl
    | cons x l ih =>
      intro h z
      rw [List.foldl_cons, ih (fun y hy => h y (by simp [hy]))]
      obtain ⟨h1, h2⟩ := h x (by simp)
      split
      · rw [List.getElem?_eq_none (by omega)]; rfl
      · rfl
  exact none ws (fun x hx => ⟨hi x hx, hs x hx⟩) 0

theorem block_octets (g : Nat → UInt8) (i : Nat) (hi : i < 256) :
    ((((List.range 8192).map g).drop (32 * i)).take 32) = (List.range 32).map (fun j => g (32 * i + j)) := by
  apply List.ext_getElem
  · simp; omega
  · intro j h1 h2
    simp

theorem strip_zeros (init : Bytes) (last : UInt8) (h : last ≠ 0) (k : Nat) :
    (((init ++ [last]) ++ List.replicate k 0).reverse.dropWhile (· == 0)).reverse = init ++ [last] := by
  rw [strip_append, List.reverse_append]
  simp [h]

theorem strip_only_zeros (k : Nat) : ((List.replicate k (0 : UInt8)).reverse.dropWhile (· == 0)).reverse = [] := by
  have := strip_append [] k
  rw [List.nil_append] at this
  rw [this]; rfl

theorem maskWindows_canonical {ws : List (Nat × Bytes)} (h : CanonicalWindows ws) (m : Bytes)
    (hm : m = (List.range 8192).map (bitmapOctet ws)) : maskWindows m = ws := by
  unfold maskWindows
  have hs : ∀ w ∈ ws, w.2.length ≤ 32 := fun w hw => (h.length w hw).2
  rw [List.range_eq_range']
  refine maskWindows_range ws (fun w => (((m.drop (32 * w)).take 32).reverse.dropWhile (· == 0)).reverse) 256 0
    (fun w hw => ⟨Nat.zero_le _, by have := h.small w hw; omega⟩) h.increasing ?_ ?_
  · intro w hw
    obtain ⟨init, last, e, hne⟩ := h.lastNonzero w hw
    refine ⟨by rw [e]; simp, ?_⟩
    show (((m.drop (32 * w.1)).take 32).reverse.dropWhile (· == 0)).reverse = w.2
    rw [hm, block_octets _ _ (h.small w hw)]
    have : (List.range 32).map (fun j => bitmapOctet ws (32 * w.1 + j)) = w.2 ++ List.replicate (32 - w.2.length) 0 := by
      have hl := hs w hw
      apply List.ext_getElem
      · rw [List.length_map, List.length_range, List.length_append, List.length_replicate]; omega
      · intro j h1 h2
        have h1' : j < 32 := by rw [List.length_map, List.length_range] at h1; exact h1
        rw [List.getElem_map, List.getElem_range, bitmapOctet_of_mem h.increasing hs hw h1']
        by_cases hj : j < w.2.length
        · rw [List.getElem_append_left hj, List.getElem?_eq_getElem hj]; rfl
        · rw [List.getElem_append_right (by omega), List.getElem_replicate, List.getElem?_eq_none (by omega)]; rfl
    rw [this, e, strip_zeros _ _ hne]
  · intro i _ hi
    show (((m.drop (32 * i)).take 32).reverse.dropWhile (· == 0)).reverse = []
    by_cases h256 : i < 256
    · rw [hm, block_octets _ _ h256]
      have : (List.range 32).map (fun j => bitmapOctet ws (32 * i + j)) = List.replicate 32 0 := by
        apply List.ext_getElem
        · rw [List.length_map, List.length_range, List.length_replicate]
        · intro j h1 h2
          have h1' : j < 32 := by rw [List.length_map, List.length_range] at h1; exact h1
          rw [List.getElem_map, List.getElem_range, bitmapOctet_of_not_mem hs hi h1', List.getElem_replicate]
      rw [this, strip_only_zeros]
    · rw [List.drop_of_length_le (by rw [hm, List.length_map, List.length_range]; omega)]; rfl

theorem windows_injective : ∀ (a b : List (Nat × Bytes)), (∀ w ∈ a, w.1 < 256 ∧ w.2.length < 256) →
    (∀ w ∈ b, w.1 < 256 ∧ w.2.length < 256) → windows a = windows b → a = b := by
  intro a
  induction a with
  | nil =>
    intro b _ _ h
    cases b with
    | nil => rfl
    | cons w b => rw [windows_cons] at h; simp [windows] at h
  | cons v a ih =>
    intro b ha hb h
    cases b with
    | nil => rw [windows_cons] at h; simp [windows] at h
    | cons w b =>
      rw [windows_cons, windows_cons] at h
      simp only [List.cons.injEq] at h
      obtain ⟨h1, h2, h3⟩ := h
      have hv := ha v (by simp)
      have hw := hb w (by simp)
      have e1 := congrArg UInt8.toNat h1
      have e2 := congrArg UInt8.toNat h2
      rw [UInt8.toNat_ofNat', UInt8.toNat_ofNat'] at e1 e2
      obtain ⟨h4, h5⟩ := List.append_inj h3 (by omega)
      rw [ih b (fun x hx => ha x (by simp [hx])) (fun x hx => hb x (by simp [hx])) h5]
      congr 1
      exact Prod.ext (by omega) h4

theorem readsBitmap_canonical {data : Bytes} {m : NSecTypeMask} (h : ReadsBitmap data m) :
    windows (maskWindows m.bytes.1) = data ↔ ∃ ws, CanonicalWindows ws ∧ data = windows ws := by
  constructor
  · intro e
    obtain ⟨c1, c2, _⟩ := chunks32_props 256 m.bytes.1 m.bytes.1.length m.bytes.2 (Nat.le_refl _)
    obtain ⟨ws, g1, g2, _⟩ := writeChunks_windows (chunks32 m.bytes.1.length m.bytes.1) 0 c2 (by omega)
    rw [← writeBitmap_windows _ m.bytes.2, writeNsecTypesBitmap_eq, g1] at e
    exact ⟨ws, g2, e.symm⟩
  · rintro ⟨ws, hc, rfl⟩
    obtain ⟨ws', h1, h2, h3⟩ := h
    have hb : ∀ w ∈ ws, w.1 < 256 ∧ w.2.length < 256 := fun w hw => ⟨hc.small w hw, by have := (hc.length w hw).2; omega⟩
    have := windows_injective ws ws' hb (fun w hw => ⟨(h2 w hw).1, (h2 w hw).2.1⟩) h1
    subst this
    rw [maskWindows_canonical hc _ h3]

/-! ### TXT -/

theorem charStrings_injective : ∀ (a b : List Bytes), (∀ s ∈ a, s.length ≤ 255) → (∀ s ∈ b, s.length ≤ 255) →
    charStrings a = charStrings b → a = b := by
  intro a
  induction a with
  | nil =>
    intro b _ _ h
    cases b with
    | nil => rfl
    | cons w b => rw [charStrings_cons] at h; simp [charStrings] at h
  | cons v a ih =>
    intro b ha hb h
    cases b with
    | nil => rw [charStrings_cons] at h; simp [charStrings] at h
    | cons w b =>
      rw [charStrings_cons, charStrings_cons] at h
      simp only [List.cons.injEq] at h
      obtain ⟨h1, h3⟩ := h
      have hv := ha v (by simp)
      have hw := hb w (by simp)
      have e1 := congrArg UInt8.toNat h1
      rw [UInt8.toNat_ofNat', UInt8.toNat_ofNat'] at e1
      obtain ⟨h4, h5⟩ := List.append_inj h3 (by omega)
      rw [ih b (fun x hx => ha x (by simp [hx])) (fun x hx => hb x (by simp [hx])) h5, h4]

theorem pieces255_flatten (full : List Bytes) (last : Bytes) (h1 : ∀ s ∈ full, s.length = 255) (h2 : 1 ≤ last.length)
    (h3 : last.length ≤ 255) : pieces255 (full ++ [last]).flatten = full ++ [last] := by
  induction full with
  | nil => simp only [List.nil_append, List.flatten_cons, List.flatten_nil, List.append_nil]; exact pieces255_short h3
  | cons s full ih =>
    have hs := h1 s (by simp)
    have hl : 1 ≤ ((full ++ [last]).flatten).length := by simp; omega
    rw [List.cons_append, List.flatten_cons, pieces255_long (by rw [List.length_append]; omega), ← hs, List.take_left, List.drop_left,
      ih (fun x hx => h1 x (by simp [hx]))]

theorem txt_canonical (ss : List Bytes) (h : ∀ s ∈ ss, s.length ≤ 255) :
    charStrings (pieces255 ss.flatten) = charStrings ss ↔ CanonicalRData 16 (charStrings ss) := by
  constructor
  · intro e
    rw [← e]
    by_cases hd : ss.flatten = []
    · rw [hd]; exact .emptyTxt
    · obtain ⟨full, last, g1, _, g2, g3, g4⟩ := txtV_charStrings _ _ rfl hd
      rw [txtV_pieces _ _ rfl hd, g1]
      exact .txt full last g2 g3 g4
  · intro hc
    generalize hk : (16 : Nat) = k at hc
    generalize hd : charStrings ss = d at hc
    cases hc with
    | any _ _ hm => subst hk; simp at hm
    | name _ _ hm => subst hk; simp at hm
    | txt full last g1 g2 g3 =>
      have := charStrings_injective ss (full ++ [last]) h (by
        intro s hs
        rcases List.mem_append.mp hs with hs | hs
        · rw [g1 s hs]; omega
        · simp at hs; rw [hs]; exact g3) hd
      rw [this, pieces255_flatten full last g1 g2 g3]
    | emptyTxt =>
      have := charStrings_injective ss [[]] h (by simp) hd
      rw [this]; rfl
    | rrsig => cases hk
    | nsec => cases hk
    | nsec3 => cases hk

/-! ### All types -/

theorem readsName_wire {ls : List Bytes} (hl : ∀ l ∈ ls, Label l) {x rest : Bytes} {n : Name} (h : ReadsName [] (wire ls ++ x) n rest) :
    rest = x := by
  obtain ⟨t, h1, _, _⟩ := h
  exact (Decodes_functional h1 (Decodes_wire [] 255 ls hl x)).2

theorem name_canonical {ty : Nat} (hty : ty ∈ [2, 5, 39]) {data : Bytes} {n : Name} {rest : Bytes} (h : ReadsName [] data n rest) :
    nameWire n.bytes = data ↔ CanonicalRData ty data := by
  have key := readsName_canonical h []
  rw [List.append_nil] at key
  rw [key]
  constructor
  · rintro ⟨rfl, ls, h1, h2⟩
    rw [List.append_nil] at h2
    rw [h2]
    exact .name ty ls hty h1
  · intro hc
    cases hc with
    | any _ _ hm => exfalso; simp at hm hty; omega
    | name _ ls _ hl =>
      have := readsName_wire hl (x := []) (by rw [List.append_nil]; exact h)
      subst this
      exact ⟨rfl, ls, hl, by rw [List.append_nil]⟩
    | txt => simp at hty
    | emptyTxt => simp at hty
    | rrsig => simp at hty
    | nsec => simp at hty
    | nsec3 => simp at hty

theorem rrsig_canonical {fixed tail : Bytes} (hf : fixed.length = 18) {n : Name} {sig : Bytes} (h : ReadsName [] tail n sig) :
    nameWire n.bytes ++ sig = tail ↔ CanonicalRData 46 (fixed ++ tail) := by
  rw [readsName_canonical h sig]
  constructor
  · rintro ⟨_, ls, h1, h2⟩
    rw [h2, ← List.append_assoc]
    exact .rrsig fixed ls sig hf h1
  · intro hc
    generalize hk : (46 : Nat) = k at hc
    generalize hd : fixed ++ tail = d at hc
    cases hc with
    | any _ _ hm => subst hk; simp at hm
    | name _ _ hm => subst hk; simp at hm
    | txt => cases hk
    | emptyTxt => cases hk
    | rrsig fixed' ls sig' g1 g2 =>
      rw [List.append_assoc] at hd
      obtain ⟨rfl, rfl⟩ := List.append_inj hd (by omega)
      have := readsName_wire g2 h
      subst this
      exact ⟨rfl, ls, g2, rfl⟩
    | nsec => cases hk
    | nsec3 => cases hk

theorem nsec_canonical {data bitmap : Bytes} {n : Name} {m : NSecTypeMask} (h : ReadsName [] data n bitmap) (hb : ReadsBitmap bitmap m) :
    nameWire n.bytes ++ windows (maskWindows m.bytes.1) = data ↔ CanonicalRData 47 data := by
  rw [readsName_canonical h]
  constructor
  · rintro ⟨h0, ls, h1, h2⟩
    obtain ⟨ws, h3, h4⟩ := (readsBitmap_canonical hb).mp h0
    rw [h2, h4]
    exact .nsec ls ws h1 h3
  · intro hc
    generalize hk : (47 : Nat) = k at hc
    cases hc with
    | any _ _ hm => subst hk; simp at hm
    | name _ _ hm => subst hk; simp at hm
    | txt => cases hk
    | emptyTxt => cases hk
    | rrsig => cases hk
    | nsec ls ws g1 g2 =>
      have := readsName_wire g1 h
      subst this
      exact ⟨(readsBitmap_canonical hb).mpr ⟨ws, g2, rfl⟩, ls, g1, rfl⟩
    | nsec3 => cases hk

theorem nsec3_canonical {fixed salt hash bitmap : Bytes} {m : NSecTypeMask} (hf : fixed.length = 4) (hs : salt.length ≤ 255)
    (hh : hash.length ≤ 255) (hb : ReadsBitmap bitmap m) :
    windows (maskWindows m.bytes.1) = bitmap ↔ CanonicalRData 50 (fixed ++ charStrings [salt] ++ charStrings [hash] ++ bitmap) := by
  rw [readsBitmap_canonical hb]
  constructor
  · rintro ⟨ws, h1, rfl⟩
    exact .nsec3 fixed salt hash ws hf hs hh h1
  · intro hc
    generalize hk : (50 : Nat) = k at hc
    generalize hd : fixed ++ charStrings [salt] ++ charStrings [hash] ++ bitmap = d at hc
    cases hc with
    | any _ _ hm => subst hk; simp at hm
    | name _ _ hm => subst hk; simp at hm
    | txt => cases hk
    | emptyTxt => cases hk
    | rrsig => cases hk
    | nsec => cases hk
    | nsec3 fixed' salt' hash' ws g1 g2 g3 g4 =>
      simp only [List.append_assoc, charStrings_cons, List.cons_append] at hd
      obtain ⟨_, hd⟩ := List.append_inj hd (by omega)
      simp only [List.cons.injEq] at hd
      have e1 := congrArg UInt8.toNat hd.1
      rw [UInt8.toNat_ofNat', UInt8.toNat_ofNat'] at e1
      obtain ⟨_, hd⟩ := List.append_inj hd.2 (by omega)
      simp only [charStrings, List.map_nil, List.flatten_nil, List.nil_append, List.cons.injEq] at hd
      have e1 := congrArg UInt8.toNat hd.1
      rw [UInt8.toNat_ofNat', UInt8.toNat_ofNat'] at e1
      obtain ⟨_, hd⟩ := List.append_inj hd.2 (by omega)
      exact ⟨ws, g4, hd⟩

/-- RDATA that was read is written back unchanged exactly if it is in canonical form. -/
theorem rdata_canonical {dbg : Bool} {owner : Name} {ty : Nat} {data : Bytes} {r : RR} (h : ReadsRData dbg [] owner ty data r) :
    rdata r = data ↔ CanonicalRData ty data := by
  cases h with
  | a => exact ⟨fun _ => .any _ _ (by simp), fun _ => rfl⟩
  | ns _ rest n h _ => exact name_canonical (by simp) h
  | cname _ rest n h _ => exact name_canonical (by simp) h
  | txt ss h => exact txt_canonical ss h
  | aaaa => exact ⟨fun _ => .any _ _ (by simp), fun _ => rfl⟩
  | dname _ rest n h _ => exact name_canonical (by simp) h
  | ds => exact ⟨fun _ => .any _ _ (by simp), fun _ => rfl⟩
  | rrsig c a l o e i k s tail sig h =>
    rw [← rrsig_canonical (by rfl) h]
    simp only [rdata]
    rw [List.append_assoc _ (nameWire _), List.append_right_inj]
  | nsec _ bitmap next types h1 h2 => exact nsec_canonical h1 h2
  | dnskey => exact ⟨fun _ => .any _ _ (by simp), fun _ => rfl⟩
  | nsec3 a f i salt hash bm types h1 h2 h3 =>
    rw [← nsec3_canonical (by rfl) h1 h2 h3]
    simp only [rdata]
    rw [List.append_right_inj]
  | tlsa => exact ⟨fun _ => .any _ _ (by simp), fun _ => rfl⟩

end Dnssec
