import Verif.Proofs.Labels
import Verif.Proofs.Rdata

/-! # C01, C02: names -/

namespace Dnssec.Props

open Dnssec Spec

/-! ## C01 -/

/-- **C01.** `Name::try_from(s)` succeeds exactly on the documented texts, and the name's text is `s` in lower case. -/
theorem C01_try_from_iff (s : Bytes) (n : Name) :
    Name.tryFrom s = some n ↔ NameText s ∧ n.bytes = s.map foldCase := tryFrom_denotes s n

/-- **C01.** Two texts that differ only in ASCII case give the same result. -/
theorem C01_case_insensitive (s t : Bytes) (h : s.map foldCase = t.map foldCase) : Name.tryFrom s = Name.tryFrom t := by
  have key : ∀ s t : Bytes, s.map foldCase = t.map foldCase → ∀ n, Name.tryFrom s = some n → Name.tryFrom t = some n := by
    intro s t h n hs
    have hl : lower s = lower t := by
      have e : ∀ s : Bytes, lower s = s.map foldCase := fun s => List.map_congr_left (fun c _ => lowerByte_eq_foldCase c)
      rw [e, e]; exact h
    rw [tryFrom_iff] at hs ⊢
    obtain ⟨ht, hn⟩ := hs
    refine ⟨?_, by rw [hn, hl]⟩
    have htl := ht.lower
    rw [hl] at htl
    -- `lower t` is a name text, hence so is `t`
    obtain ⟨⟨u, hu⟩, h2, h3, h4⟩ := htl
    have hlen : t.length ≤ 255 := by simpa using h2
    refine ⟨?_, hlen, ?_, ?_⟩
    · rcases List.eq_nil_or_concat t with e | ⟨v, c, e⟩
      · subst e; simp [lower] at hu
      · subst e
        rw [List.concat_eq_append, lower_append] at hu
        have := List.append_inj' hu (by simp)
        have hc : lowerByte c = 46 := by simpa [lower] using this.2
        rw [lowerByte_dot] at hc
        exact ⟨v, by rw [hc, List.concat_eq_append]⟩
    · intro c hc
      exact (lowerByte_printable c).mpr (h3 (lowerByte c) (by simp only [lower, List.mem_map]; exact ⟨c, hc, rfl⟩))
    · intro pre l post e hl
      have := h4 (lower pre) (lower l) (lower post) (by rw [e, lower_append, lower_append])
        (by rw [dot_mem_lower]; exact hl)
      simpa using this
  cases hs : Name.tryFrom s with
  | some n => exact (key s t h n hs).symm
  | none =>
    cases ht : Name.tryFrom t with
    | none => rfl
    | some n => rw [key t s h.symm n ht] at hs; exact absurd hs (by simp)

/-- **C01.** A name's own text is accepted back unchanged. -/
theorem C01_idempotent (s : Bytes) (n : Name) (h : Name.tryFrom s = some n) : Name.tryFrom n.bytes = some n := by
  have ho : Obtainable n := obtainable_of h
  rw [tryFrom_iff]
  exact ⟨ho.nameText.1, ho.nameText.2.symm⟩

/-- `"eXample.COM."` is accepted as `"example.com."`; `"example.com"` and `"a b."` are not. -/
example : Name.tryFrom (ascii "eXample.COM.") = some ⟨ascii "example.com."⟩ ∧
    Name.tryFrom (ascii "example.com") = none ∧ Name.tryFrom (ascii "a b.") = none ∧
    Name.tryFrom [] = none ∧ Name.tryFrom (ascii ".") = some ⟨ascii "."⟩ := by decide

/-! ## C02 -/

/-- The names C02 speaks about are exactly those with a list of labels: every obtainable name without empty labels has
one, and only one, and every list of labels whose text is short enough is an obtainable name. -/
theorem C02_names_have_labels (n : Name) (h : Obtainable n) (he : NoEmptyLabel n) :
    ∃ ls, HasLabels n ls ∧ ∀ ms, HasLabels n ms → ms = ls := by
  obtain ⟨ls, hl⟩ := h.hasLabels he
  exact ⟨ls, hl, fun ms hm => hm.unique hl⟩

/-- **C02.** `labels()` is the number of labels: the cast to `u8` never truncates. -/
theorem C02_labels (n : Name) (ls : List Bytes) (h : HasLabels n ls) : n.labels.toNat = ls.length := h.labels_eq

/-- **C02.** `trailing_n_labels(k)` is `None` exactly when `k > labels()`. -/
theorem C02_trailing_none (n : Name) (ls : List Bytes) (h : HasLabels n ls) (k : UInt8) :
    n.trailingNLabels k = none ↔ k > n.labels := by
  rw [h.trailing, GT.gt, UInt8.lt_iff_toNat_lt, h.labels_eq]
  split <;> simp <;> omega

/-- **C02.** Otherwise it is exactly the text of the last `k` labels, itself a valid name with `k` labels. -/
theorem C02_trailing_some (n : Name) (ls : List Bytes) (h : HasLabels n ls) (k : UInt8) (hk : k ≤ n.labels) :
    ∃ pre suf, ls = pre ++ suf ∧ suf.length = k.toNat ∧ n.trailingNLabels k = some (text suf) ∧
      Name.tryFrom (text suf) = some ⟨text suf⟩ ∧ (⟨text suf⟩ : Name).labels = k := by
  rw [UInt8.le_iff_toNat_le, h.labels_eq] at hk
  have hd := h.drop (ls.length - k.toNat)
  refine ⟨ls.take (ls.length - k.toNat), ls.drop (ls.length - k.toNat), by simp, by simp; omega, ?_, ?_, ?_⟩
  · rw [h.trailing, if_pos hk]
  · exact tryFrom_text hd.labels hd.short
  · rw [← UInt8.toNat_inj, hd.labels_eq]; simp; omega

/-- **C02.** `write_name` writes the labels, each after a byte with its length, and a zero byte. The specification's `nameWire`, which
gives this in terms of the text, agrees with it. -/
theorem C02_wire (n : Name) (ls : List Bytes) (h : HasLabels n ls) : writeName n.bytes = wire ls ∧ nameWire n.bytes = wire ls :=
  ⟨h.writeName, nameWire_labels h⟩

example : writeName (ascii "a.bc.") = [1, 97, 2, 98, 99, 0] ∧ nameWire (ascii "A.bc.") = [1, 97, 2, 98, 99, 0] := by decide

/-- `a.b.c.` has three labels and its last two are `b.c.`. -/
example : HasLabels ⟨ascii "a.b.c."⟩ [ascii "a", ascii "b", ascii "c"] ∧
    (⟨ascii "a.b.c."⟩ : Name).labels = 3 ∧ (⟨ascii "a.b.c."⟩ : Name).trailingNLabels 2 = some (ascii "b.c.") ∧
    (⟨ascii "a.b.c."⟩ : Name).trailingNLabels 0 = some (ascii ".") ∧
    (⟨ascii "a.b.c."⟩ : Name).trailingNLabels 4 = none := by
  refine ⟨⟨?_, by decide, by decide⟩, by decide, by decide, by decide, by decide⟩
  intro l hl
  have hl : l = ascii "a" ∨ l = ascii "b" ∨ l = ascii "c" := by simpa using hl
  rcases hl with rfl | rfl | rfl <;> exact ⟨by decide, by decide, by decide⟩

/-- Why C02 excludes names with empty labels: `".."` is accepted by `try_from`, has `labels() = 2`, and
`trailing_n_labels(1)` is `"."`, which has zero labels. -/
theorem C02_empty_labels_differ :
    ∃ n : Name, Obtainable n ∧ n.trailingNLabels 1 = some (ascii ".") ∧ (⟨ascii "."⟩ : Name).labels = 0 :=
  ⟨⟨ascii ".."⟩, ⟨ascii "..", by decide⟩, by decide, by decide⟩

end Dnssec.Props
