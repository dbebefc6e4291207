import Verif.Proofs.Denial
import Verif.Proofs.Complete
import Verif.Spec.Chain

/-! # Lemmas for C83 -/

namespace Dnssec

open Spec

/-- Somewhere between a place where `P` holds and a later one where it does not, it stops holding. -/
theorem exists_step (P : Nat → Prop) (hd : ∀ i, Decidable (P i)) {i : Nat} (hi : P i) :
    ∀ k, ¬ P (i + k) → ∃ m, i ≤ m ∧ m < i + k ∧ P m ∧ ¬ P (m + 1)
  | 0, h => absurd hi h
  | k + 1, h => by
    by_cases hk : P (i + k)
    · exact ⟨i + k, by omega, by omega, hk, h⟩
    · obtain ⟨m, a, b, c, d⟩ := exists_step P hd hi k hk
      exact ⟨m, a, by omega, c, d⟩

theorem textLt_irrefl (a : Bytes) : ¬ TextLt a a := by
  rw [← nsecOrd_lt_text, (nsecOrd_eq_iff a a).mpr rfl]; simp

theorem textLt_trans {a b c : Bytes} (h1 : TextLt a b) (h2 : TextLt b c) : TextLt a c := by
  rw [← nsecOrd_lt_text] at *
  exact nsecOrd_lt_trans h1 h2

theorem textLt_total (a b : Bytes) (h : a.map foldCase ≠ b.map foldCase) : TextLt a b ∨ TextLt b a := by
  rw [← nsecOrd_lt_text, ← nsecOrd_lt_text, nsecOrd_swap a b]
  rw [← lower_eq_fold, ← lower_eq_fold, Ne, ← nsecOrd_eq_iff] at h
  cases hc : nsecOrd a b <;> simp_all

instance (a b : Bytes) : Decidable (TextLt a b) := decidable_of_iff _ (nsecOrd_lt_text a b)
instance (a b : Bytes) : Decidable (OctetLt a b) := decidable_of_iff _ (cmpBytes_lt_iff (a := a) (b := b))

theorem octetLt_trans {a b c : Bytes} (h1 : OctetLt a b) (h2 : OctetLt b c) : OctetLt a c := by
  rw [← cmpBytes_lt_iff] at *
  exact Std.TransCmp.lt_trans h1 h2

theorem octetLt_total (a b : Bytes) (h : a ≠ b) : OctetLt a b ∨ OctetLt b a := by
  rw [← cmpBytes_lt_iff, ← cmpBytes_lt_iff, cmpBytes_swap' a b]
  rw [Ne, ← cmpBytes_eq_iff] at h
  cases hc : cmpBytes a b <;> simp_all

/-- In a list on which `B` holds of a beginning only, there is a last place where it holds and a first where it does not. -/
theorem chain_gap {α : Type} {chain : List α} {B : α → Prop} (hd : ∀ e, Decidable (B e))
    (hs : chain.Pairwise fun a b => B b → B a) {a b : α} (ha : a ∈ chain) (hB : B a) (hb : b ∈ chain) (hB' : ¬ B b) :
    ∃ i e e', chain[i]? = some e ∧ chain[i + 1]? = some e' ∧ B e ∧ ¬ B e' := by
  obtain ⟨i, hi, rfl⟩ := List.mem_iff_getElem.mp ha
  obtain ⟨j, hj, rfl⟩ := List.mem_iff_getElem.mp hb
  have hij : i < j := by
    rcases Nat.lt_trichotomy i j with h | rfl | h
    · exact h
    · exact absurd hB hB'
    · exact absurd (List.pairwise_iff_getElem.mp hs j i hj hi h hB) hB'
  obtain ⟨m, h1, h2, h3, h4⟩ := exists_step (fun m => ∃ h : m < chain.length, B chain[m]) (fun m => by
      by_cases h : m < chain.length
      · exact decidable_of_iff (B chain[m]) ⟨fun x => ⟨h, x⟩, fun ⟨_, x⟩ => x⟩
      · exact isFalse fun ⟨h', _⟩ => h h') (i := i) ⟨hi, hB⟩ (j - i) (by
      rw [show i + (j - i) = j by omega]
      exact fun ⟨_, h⟩ => hB' h)
  obtain ⟨g, h3⟩ := h3
  have hm : m + 1 < chain.length := by omega
  exact ⟨m, chain[m], chain[m + 1], by simp [g], by simp [hm], h3, fun h => h4 ⟨hm, h⟩⟩

theorem Spec.NsecChain.sortedB {zone : Name} {chain : List NSec} (h : NsecChain zone chain) (name : Bytes) :
    chain.Pairwise fun a b => TextLt b.name.bytes name → TextLt a.name.bytes name :=
  h.sorted.imp fun h1 h2 => textLt_trans h1 h2

theorem Spec.NsecChain.zone_mem {zone : Name} {chain : List NSec} (h : NsecChain zone chain) : ∃ n ∈ chain, n.name = zone := by
  have := h.first
  cases chain with
  | nil => simp at this
  | cons n ns => exact ⟨n, by simp, by simpa using this⟩

/-- No owner is before the zone. -/
theorem Spec.NsecChain.zone_le {zone : Name} {chain : List NSec} (h : NsecChain zone chain) {n : NSec} (hn : n ∈ chain) :
    n.name = zone ∨ TextLt zone.bytes n.name.bytes := by
  have hf := h.first
  have hs := h.sorted
  cases chain with
  | nil => simp at hn
  | cons m ms =>
    simp only [List.head?_cons, Option.map_some, Option.some.injEq] at hf
    rcases List.mem_cons.mp hn with rfl | hn
    · exact Or.inl hf
    · rw [← hf]; exact Or.inr ((List.pairwise_cons.mp hs).1 n hn)

/-- In every complete chain some record covers each name after the zone that is not an owner; the last one only if all owners are before. -/
theorem Spec.NsecChain.covered {zone : Name} {chain : List NSec} (h : NsecChain zone chain) {name : Bytes} (hz : TextLt zone.bytes name)
    (hno : ∀ n ∈ chain, n.name.bytes.map foldCase ≠ name.map foldCase) :
    (∃ n ∈ chain, TextLt n.name.bytes name ∧ TextLt name n.nextName.bytes) ∨
    ((∀ n ∈ chain, TextLt n.name.bytes name) ∧ ∃ n ∈ chain, TextLt n.name.bytes name ∧ n.nextName = zone) := by
  obtain ⟨m, hm, hmz⟩ := h.zone_mem
  by_cases hall : ∀ n ∈ chain, TextLt n.name.bytes name
  · refine Or.inr ⟨hall, ?_⟩
    have hlen : 0 < chain.length := List.length_pos_of_mem hm
    have hl : chain.length - 1 < chain.length := by omega
    refine ⟨chain[chain.length - 1], List.getElem_mem hl, hall _ (List.getElem_mem hl), ?_⟩
    rw [h.next (chain.length - 1) _ (List.getElem?_eq_getElem hl), List.getElem?_eq_none (by omega)]
    rfl
  · obtain ⟨b, hb⟩ := Classical.not_forall.mp hall
    obtain ⟨hb, hB⟩ := Classical.not_imp.mp hb
    obtain ⟨i, e, e', h1, h2, h3, h4⟩ := chain_gap (B := fun n : NSec => TextLt n.name.bytes name) (fun _ => inferInstance)
      (h.sortedB name) hm (by rw [hmz]; exact hz) hb hB
    refine Or.inl ⟨e, List.mem_of_getElem? h1, h3, ?_⟩
    rw [h.next i e h1, h2]
    exact (textLt_total _ _ (hno e' (List.mem_of_getElem? h2))).resolve_left h4

theorem Spec.Nsec3Chain.sortedB {zone : Name} {it : UInt16} {salt : Bytes} {chain : List (Bytes × NSec3)}
    (h : Nsec3Chain zone it salt chain) (hash : Bytes) : chain.Pairwise fun a b => OctetLt b.1 hash → OctetLt a.1 hash :=
  h.sorted.imp fun h1 h2 => octetLt_trans h1 h2

/-- The hash a record of the chain names: that of the following record, or for the last one the first. -/
theorem Spec.Nsec3Chain.next_cases {zone : Name} {it : UInt16} {salt : Bytes} {chain : List (Bytes × NSec3)}
    (h : Nsec3Chain zone it salt chain) {e : Bytes × NSec3} (he : e ∈ chain) :
    (∃ e' ∈ chain, e.2.nextNameHash = e'.1 ∧ OctetLt e.1 e'.1) ∨
    (∃ e0 ∈ chain, e.2.nextNameHash = e0.1 ∧ (∀ x ∈ chain, e0.1 = x.1 ∨ OctetLt e0.1 x.1) ∧
      ∀ x ∈ chain, x.1 = e.1 ∨ OctetLt x.1 e.1) := by
  obtain ⟨i, hi⟩ := List.getElem?_of_mem he
  have hil : i < chain.length := (List.getElem?_eq_some_iff.mp hi).1
  have hie : chain[i] = e := (List.getElem?_eq_some_iff.mp hi).2
  have hn := h.next i e hi
  by_cases hl : i + 1 < chain.length
  · rw [List.getElem?_eq_getElem hl] at hn
    simp only [Option.some_or, Option.map_some, Option.some.injEq] at hn
    refine Or.inl ⟨_, List.getElem_mem hl, hn, ?_⟩
    have := List.pairwise_iff_getElem.mp h.sorted i (i + 1) hil hl (by omega)
    rwa [hie] at this
  · have h0 : 0 < chain.length := by omega
    rw [List.getElem?_eq_none (by omega), Option.none_or, List.getElem?_eq_getElem h0] at hn
    simp only [Option.map_some, Option.some.injEq] at hn
    refine Or.inr ⟨_, List.getElem_mem h0, hn, ?_, ?_⟩
    · intro x hx
      obtain ⟨j, hj, rfl⟩ := List.mem_iff_getElem.mp hx
      rcases Nat.eq_zero_or_pos j with rfl | hj0
      · exact Or.inl rfl
      · exact Or.inr (List.pairwise_iff_getElem.mp h.sorted 0 j h0 hj hj0)
    · intro x hx
      obtain ⟨j, hj, rfl⟩ := List.mem_iff_getElem.mp hx
      rcases Nat.lt_or_ge j i with hji | hji
      · have := List.pairwise_iff_getElem.mp h.sorted j i hj hil hji
        rw [hie] at this
        exact Or.inr this
      · have : j = i := by omega
        subst this
        exact Or.inl (by rw [hie])

/-- In every complete chain some record covers each hash that is not an owner's. -/
theorem Spec.Nsec3Chain.covered {zone : Name} {it : UInt16} {salt : Bytes} {chain : List (Bytes × NSec3)}
    (h : Nsec3Chain zone it salt chain) {hash : Bytes} (hno : ∀ e ∈ chain, e.1 ≠ hash)
    (h1 : ∃ e ∈ chain, OctetLt e.1 hash) (h2 : ∃ e ∈ chain, OctetLt hash e.1) :
    ∃ e ∈ chain, OctetLt e.1 hash ∧ OctetLt hash e.2.nextNameHash := by
  obtain ⟨a, ha, hB⟩ := h1
  obtain ⟨b, hb, hB'⟩ := h2
  obtain ⟨i, e, e', h1, h2, h3, h4⟩ := chain_gap (B := fun e : Bytes × NSec3 => OctetLt e.1 hash) (fun _ => inferInstance)
    (h.sortedB hash) ha hB hb (fun h => octetLt_irrefl _ (octetLt_trans h hB'))
  refine ⟨e, List.mem_of_getElem? h1, h3, ?_⟩
  have hn := h.next i e h1
  rw [h2] at hn
  simp only [Option.some_or, Option.map_some, Option.some.injEq] at hn
  rw [hn]
  exact (octetLt_total _ _ (hno e' (List.mem_of_getElem? h2))).resolve_left h4

end Dnssec
