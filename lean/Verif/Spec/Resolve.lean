import Verif.Model.Validation
import Verif.Spec.Name

/-! # Specification of alias resolution -/

namespace Dnssec.Spec

open Dnssec

/-- `r` is the first record in the list with property `P`. -/
def FirstWith (rrs : List RR) (P : RR → Prop) (r : RR) : Prop :=
  ∃ before after, rrs = before ++ r :: after ∧ P r ∧ ∀ x ∈ before, ¬ P x

/-- `r` is a CNAME at `n`. -/
def CnameAt (n : Name) (r : RR) : Prop := ∃ c, r = .cname c ∧ c.name = n

/-- `r` is a DNAME whose owner name is, as text, a suffix of `n`. -/
def DnameFor (n : Name) (r : RR) : Prop := ∃ d pre, r = .dname d ∧ n.bytes = pre ++ d.name.bytes

/-- One redirection: to the target of the first CNAME at the name, or, if there is none, by the first DNAME for it, replacing
its owner name by its target, if the result is a valid name. -/
inductive Alias (rrs : List RR) (n : Name) : Name → Prop
  | cname (c : CName) : FirstWith rrs (CnameAt n) (.cname c) → Alias rrs n c.canonicalName
  | dname (d : DName) (pre : Bytes) (m : Name) : (∀ r ∈ rrs, ¬ CnameAt n r) → FirstWith rrs (DnameFor n) (.dname d) →
      n.bytes = pre ++ d.name.bytes → Denotes (pre ++ d.delegationName.bytes) m → Alias rrs n m

/-- The end of a chain: no alias at all gives the records at the name, a DNAME with an invalid result gives nothing. -/
inductive Final (rrs : List RR) (n : Name) : List RR → Prop
  | records : (∀ r ∈ rrs, ¬ CnameAt n r) → (∀ r ∈ rrs, ¬ DnameFor n r) → Final rrs n (rrs.filter fun r => r.name = n)
  | invalid (d : DName) (pre : Bytes) : (∀ r ∈ rrs, ¬ CnameAt n r) → FirstWith rrs (DnameFor n) (.dname d) →
      n.bytes = pre ++ d.name.bytes → ¬ NameText (pre ++ d.delegationName.bytes) → Final rrs n []

/-- A chain of `k` redirections from `n` to `m`. -/
inductive Chain (rrs : List RR) (n : Name) : Nat → Name → Prop
  | nil : Chain rrs n 0 n
  | snoc {k : Nat} {m m' : Name} : Chain rrs n k m → Alias rrs m m' → Chain rrs n (k + 1) m'

end Dnssec.Spec
