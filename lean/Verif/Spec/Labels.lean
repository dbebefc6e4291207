import Verif.Spec.Wire

/-! # Specification of names on the wire as sequences of labels (C92) -/

namespace Dnssec.Spec

open Dnssec

/-- In the message `msg`, `inp` starts with a name with the labels `ls`, each of 1 to `longest` octets, and `rest` follows; at most
`k` pointers are followed. A length octet of 192 or more is a pointer as long as pointers may still be followed. -/
inductive LabelsAt (longest : Nat) (msg : Bytes) : Nat → Bytes → List Bytes → Bytes → Prop
  | root (k : Nat) (rest : Bytes) : LabelsAt longest msg k (0 :: rest) [] rest
  | label (k : Nat) (len : UInt8) (l inp : Bytes) (ls : List Bytes) (rest : Bytes) :
      l ≠ [] → len.toNat = l.length → l.length ≤ longest → (l.length < 192 ∨ k = 0) → LabelsAt longest msg k inp ls rest →
      LabelsAt longest msg k (len :: (l ++ inp)) (l :: ls) rest
  | pointer (k : Nat) (hi lo : UInt8) (ls : List Bytes) (rest rest' : Bytes) :
      192 ≤ hi.toNat → (hi.toNat - 192) * 256 + lo.toNat < msg.length →
      LabelsAt longest msg k (msg.drop ((hi.toNat - 192) * 256 + lo.toNat)) ls rest' →
      LabelsAt longest msg (k + 1) (hi :: lo :: rest) ls rest

/-- RFC 1035 3.1 and 4.1.4: in the message `msg`, `inp` starts with the name with the labels `ls`, of at most 63 octets, after at most
255 pointers, and `rest` follows. -/
def NameAt (msg inp : Bytes) (ls : List Bytes) (rest : Bytes) : Prop := LabelsAt 63 msg 255 inp ls rest

/-- The labels in lower case. -/
def lowerLabels (ls : List Bytes) : List Bytes := ls.map (·.map foldCase)

/-- No label contains a dot. (RFC 1035 3.1 and RFC 2181 11 allow any octet in a label.) -/
def NoDots (ls : List Bytes) : Prop := ∀ l ∈ ls, (46 : UInt8) ∉ l

instance (ls : List Bytes) : Decidable (NoDots ls) := inferInstanceAs (Decidable (∀ l ∈ ls, (46 : UInt8) ∉ l))

end Dnssec.Spec
