import Verif.Spec.Window
import Verif.Props.Misc
import Verif.Props.Validation

/-! # C89: in the window returned, the signatures are valid -/

namespace Dnssec.Props

open Dnssec Spec

variable {dbg : Bool} {p : Platform} {inp : List RR} {fuel : Nat} {v : Verified}

/-- **C89 (partial).** At every moment from `valid_from` to `expires`, every signature used is valid as RFC 4034 says, if it became
valid after 1997 (and before 2106, when the 32 bit times start again) and is valid for less than 68 years. Missing: other signatures, for which this is false. -/
theorem C89_sound_partial (h : verifyRRStream dbg p fuel inp = some (.ok v)) {T : Nat} (h1 : v.validFrom ≤ T) (h2 : T ≤ v.expires)
    (s : RRSig) (hs : Used (codeCheck p) p inp s) (hi : cutoff ≤ s.inception.toNat)
    (hl : instant s.expiration + 1 < instant s.inception + 2 ^ 31) : ValidAt s T := by
  obtain ⟨⟨_, a⟩, ⟨_, b⟩, _⟩ := C24_window h
  have a := a s hs
  have b := b s hs
  simp only at a b
  have hc : cutoff = 851472000 := rfl
  have e1 := s.inception.toNat_lt
  have e2 := s.expiration.toNat_lt
  unfold ValidAt SerialLe
  have ei : instant s.inception = s.inception.toNat := if_neg (by omega)
  rw [ei] at a hl
  by_cases hb : s.expiration.toNat < 27 * 365 * 86400
  · have ee : instant s.expiration = s.expiration.toNat + (2 ^ 32 - 1) := if_pos hb
    rw [ee] at b hl
    omega
  · have ee : instant s.expiration = s.expiration.toNat := if_neg hb
    rw [ee] at b hl
    omega

/-- **C89, exact.** Until 2106, for signatures that are valid for less than 68 years, the window consists exactly of the moments at which all signatures used are valid.
Missing: other times and signatures. -/
theorem C89_exact_partial (h : verifyRRStream dbg p fuel inp = some (.ok v)) {T : Nat} (hT : cutoff ≤ T) (hT' : T < 2 ^ 32)
    (ht : ∀ s, Used (codeCheck p) p inp s → cutoff ≤ s.inception.toNat ∧ cutoff ≤ s.expiration.toNat ∧
      s.expiration.toNat < s.inception.toNat + 2 ^ 31) :
    (v.validFrom ≤ T ∧ T ≤ v.expires) ↔ ∀ s, Used (codeCheck p) p inp s → ValidAt s T := by
  obtain ⟨⟨⟨si, hsi, ei⟩, a⟩, ⟨⟨se, hse, ee⟩, b⟩, hlt⟩ := C24_window h
  have hc : cutoff = 851472000 := rfl
  have inst : ∀ t : UInt32, cutoff ≤ t.toNat → instant t = t.toNat := by
    intro t ht
    unfold instant
    rw [if_neg (by omega)]
  simp only at ei a ee b
  constructor
  · rintro ⟨h1, h2⟩ s hs
    have a := a s hs
    have b := b s hs
    obtain ⟨t1, t2, t3⟩ := ht s hs
    rw [inst _ t1] at a
    rw [inst _ t2] at b
    have e1 := s.inception.toNat_lt
    have e2 := s.expiration.toNat_lt
    unfold ValidAt SerialLe
    omega
  · intro hv
    have key : ∀ s, Used (codeCheck p) p inp s → s.inception.toNat ≤ T ∧ T ≤ s.expiration.toNat := by
      intro s hs
      have a := a s hs
      have b := b s hs
      obtain ⟨t1, t2, t3⟩ := ht s hs
      rw [inst _ t1] at a
      rw [inst _ t2] at b
      have e1 := s.inception.toNat_lt
      have e2 := s.expiration.toNat_lt
      have hs := hv s hs
      unfold ValidAt SerialLe at hs
      omega
    rw [← ei, ← ee, inst _ (ht si hsi).1, inst _ (ht se hse).2.1]
    exact ⟨(key si hsi).1, (key se hse).2⟩

/-- All signatures of the example meet the hypotheses. -/
example : (∃ v, verifyRRStream true wPlatform 5 wStream = some (.ok v) ∧ v.validFrom ≤ 1500000000 ∧ 1500000000 ≤ v.expires) ∧
    ∀ s, Used (codeCheck wPlatform) wPlatform wStream s → cutoff ≤ s.inception.toNat ∧ cutoff ≤ s.expiration.toNat ∧
      s.expiration.toNat < s.inception.toNat + 2 ^ 31 := by
  refine ⟨⟨⟨[wA "a.c."], 1000000000, 2000000000, 3600⟩, by decide +kernel, by decide, by decide⟩, ?_⟩
  have hall : ∀ s ∈ wStream.filterMap (fun | .rrsig s => some s | _ => none), cutoff ≤ s.inception.toNat ∧ cutoff ≤ s.expiration.toNat ∧
      s.expiration.toNat < s.inception.toNat + 2 ^ 31 := by decide +kernel
  intro s hs
  refine hall s (List.mem_filterMap.mpr ⟨.rrsig s, ?_, rfl⟩)
  obtain ⟨z, _, hk | hs⟩ := hs
  · obtain ⟨_, before, after, he, _⟩ := hk
    exact (mem_keySigs.mp (by rw [he]; simp : s ∈ keySigs wStream z)).1
  · exact (mem_sigsBy.mp hs.1).1

/-- A signature over the address that lasts for 95 years. -/
def centurySig : RRSig := ⟨⟨ascii "a.c."⟩, 1, 8, 2, 3600, 4000000000, 1000000000, 20326, ⟨ascii "c."⟩, [1]⟩

/-- The address with that signature. -/
def centuryStream : List RR := wZone "." 0 ++ wDelegation "." "c." 1 ++ [wA "a.c.", .rrsig centurySig]

/-- **C89 is false** for signatures that last longer than 68 years: as serial numbers, such an expiration is before the time at which it is compared. -/
theorem C89_fails_long_lifetime : ∃ v, verifyRRStream dbg wPlatform 5 centuryStream = some (.ok v) ∧ v.validFrom ≤ 1500000000 ∧ 1500000000 ≤ v.expires ∧
    wA "a.c." ∈ v.verifiedRrs ∧ (∀ s, RR.rrsig s ∈ centuryStream → s.name = ⟨ascii "a.c."⟩ → s = centurySig) ∧ ¬ ValidAt centurySig 1500000000 := by
  refine ⟨⟨[wA "a.c."], 1000000000, 2000000000, 3600⟩, by cases dbg <;> decide +kernel, by decide, by decide, by simp, ?_, by decide⟩
  have hall : ∀ s ∈ centuryStream.filterMap (fun | .rrsig s => some s | _ => none), s.name = ⟨ascii "a.c."⟩ → s = centurySig := by decide +kernel
  exact fun s hs => hall s (List.mem_filterMap.mpr ⟨_, hs, rfl⟩)

/-- The example with signatures that are valid for the first 100 seconds after the overflow in 2106. -/
def overflowStream : List RR := wStream.map fun | .rrsig s => .rrsig { s with inception := 0, expiration := 100 } | r => r

/-- **C89 is false** after 2106: `valid_from` is one second too early. (A second before the overflow, no signature is valid.) -/
theorem C89_fails_overflow : ∃ v, verifyRRStream dbg wPlatform 5 overflowStream = some (.ok v) ∧ v.validFrom ≤ 2 ^ 32 - 1 ∧ 2 ^ 32 - 1 ≤ v.expires ∧
    ∀ s, RR.rrsig s ∈ overflowStream → ¬ ValidAt s (2 ^ 32 - 1) ∧ ValidAt s (2 ^ 32) := by
  refine ⟨⟨[wA "a.c."], 4294967295, 4294967395, 3600⟩, by cases dbg <;> decide +kernel, by decide, by decide, ?_⟩
  have hall : ∀ s ∈ overflowStream.filterMap (fun | .rrsig s => some s | _ => none), ¬ ValidAt s (2 ^ 32 - 1) ∧ ValidAt s (2 ^ 32) := by decide +kernel
  exact fun s hs => hall s (List.mem_filterMap.mpr ⟨_, hs, rfl⟩)

end Dnssec.Props
