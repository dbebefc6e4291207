import Verif.Model.Name

/-!
# Specification of domain names

Text form and wire form of a name given by its labels, independently of the string functions in the model.
-/

namespace Dnssec.Spec

open Dnssec

/-- The documented rules for the text of a name: non-empty, ends in `.`, at most 255 bytes, printable ASCII other than
`"`, and no run of non-dot characters (label) longer than 63. -/
structure NameText (s : Bytes) : Prop where
  endsInDot : ∃ t, s = t ++ [46]
  short : s.length ≤ 255
  printable : ∀ c ∈ s, 33 ≤ c.toNat ∧ c.toNat ≤ 126 ∧ c.toNat ≠ 34
  labels : ∀ pre label post, s = pre ++ label ++ post → 46 ∉ label → label.length ≤ 63

/-- ASCII lower case of one byte, as a table on code points. -/
def foldCase (c : UInt8) : UInt8 := if 'A'.toNat ≤ c.toNat ∧ c.toNat ≤ 'Z'.toNat then c + 32 else c

/-- A label as it appears in a `Name`: 1 to 63 printable characters, no dot, no `"`, no upper case. -/
structure Label (l : Bytes) : Prop where
  nonempty : l ≠ []
  short : l.length ≤ 63
  chars : ∀ c ∈ l, 33 ≤ c.toNat ∧ c.toNat ≤ 126 ∧ c.toNat ≠ 34 ∧ c.toNat ≠ 46 ∧ ¬ (65 ≤ c.toNat ∧ c.toNat ≤ 90)

/-- Text of the name with the given labels: every label followed by a dot; the root is a single dot. -/
def text (ls : List Bytes) : Bytes := if ls = [] then [46] else (ls.map (fun l => l ++ [46])).flatten

/-- RFC 1035 3.1 wire form: length-prefixed labels, then a zero byte. -/
def wire (ls : List Bytes) : Bytes := (ls.map (fun l => UInt8.ofNat l.length :: l)).flatten ++ [0]

/-- The parts of a text between dots: `"a.b."` is cut into `a`, `b` and an empty part. -/
def cutAtDots : Bytes → List Bytes
  | [] => [[]]
  | c :: s =>
    match cutAtDots s with
    | part :: parts => if c = 46 then [] :: part :: parts else (c :: part) :: parts
    | [] => []

/-- RFC 4034 6.2 canonical wire form of a name given as text: lower case, every part preceded by its length; the empty part after
the last dot is the root label. (For a name with labels `ls` this is `wire ls`, theorem `C02_wire`.) -/
def nameWire (s : Bytes) : Bytes :=
  if s = [46] then [0] else ((cutAtDots (s.map foldCase)).map (fun l => UInt8.ofNat l.length :: l)).flatten

/-- `n` is the name with labels `ls` (leftmost first). -/
structure HasLabels (n : Name) (ls : List Bytes) : Prop where
  labels : ∀ l ∈ ls, Label l
  bytes : n.bytes = text ls
  short : n.bytes.length ≤ 255

/-- The text `s` is that of the name `n`, up to case. -/
def Denotes (s : Bytes) (n : Name) : Prop := NameText s ∧ n.bytes = s.map foldCase

/-- Names obtainable through the public API: those of some text (`Name::try_from`, C01). -/
def Obtainable (n : Name) : Prop := ∃ s, Denotes s n

/-- A name none of whose labels is empty. (`Name::try_from` also accepts texts such as `"a..b."`.) -/
def NoEmptyLabel (n : Name) : Prop :=
  n.bytes = [46] ∨ ((∀ t, n.bytes ≠ 46 :: t) ∧ ∀ a b, n.bytes ≠ a ++ [46, 46] ++ b)

/-- `s` is, as a sequence of labels, equal to or below `z`. -/
def AtOrBelow (n z : List Bytes) : Prop := ∃ pre, n = pre ++ z

end Dnssec.Spec
