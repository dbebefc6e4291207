import Verif.Proofs.Labels

/-! # Decidability of the name specifications (used for concrete examples) -/

namespace Dnssec

open Spec

instance (l : Bytes) : Decidable (Label l) :=
  decidable_of_iff (l ≠ [] ∧ l.length ≤ 63 ∧
    ∀ c ∈ l, 33 ≤ c.toNat ∧ c.toNat ≤ 126 ∧ c.toNat ≠ 34 ∧ c.toNat ≠ 46 ∧ ¬ (65 ≤ c.toNat ∧ c.toNat ≤ 90))
    ⟨fun ⟨a, b, c⟩ => ⟨a, b, c⟩, fun ⟨a, b, c⟩ => ⟨a, b, c⟩⟩

instance (n : Name) (ls : List Bytes) : Decidable (HasLabels n ls) :=
  decidable_of_iff ((∀ l ∈ ls, Label l) ∧ n.bytes = text ls ∧ n.bytes.length ≤ 255)
    ⟨fun ⟨a, b, c⟩ => ⟨a, b, c⟩, fun ⟨a, b, c⟩ => ⟨a, b, c⟩⟩

example : HasLabels ⟨ascii "example.com."⟩ [ascii "example", ascii "com"] := by decide

end Dnssec
