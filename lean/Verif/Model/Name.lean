import Verif.Model.Basic

/-! # Model of `Name` (src/rr.rs) and of the name writers (src/ser.rs) -/

namespace Dnssec

/-- src/rr.rs:22 `pub struct Name(String)`. The Rust field is private: outside this module a `Name` only ever comes from
`try_from`, see `NameValid` in the specification. -/
structure Name where
  bytes : Bytes
deriving DecidableEq, Repr

namespace Name

/-- src/rr.rs:27-33 `Name::labels` (the `as u8` cast is kept). -/
def labels (n : Name) : UInt8 :=
  if n.bytes = [dot] then 0
  else UInt8.ofNat (n.bytes.filter (fun c => c = dot)).length

/-- src/rr.rs:35-46 `Name::trailing_n_labels`. `splitn(..).last()` is `getLast?`. -/
def trailingNLabels (nm : Name) (n : UInt8) : Option Bytes :=
  let labels := nm.labels
  if n > labels then none
  else if n = labels then some nm.bytes
  else if n = 0 then some [dot]
  else (splitnDot (labels.toNat - n.toNat + 1) nm.bytes).getLast?

/-- src/rr.rs:57-70 `TryFrom<String> for Name`. -/
def tryFrom (s : Bytes) : Option Name :=
  if s.isEmpty then none
  else if s.getLast?.getD 0 ≠ dot then none
  else if s.length > 255 then none
  else if s.any (fun c => !isGraphic c || c == 34) then none
  else if (splitDot s).any (fun label => decide (label.length > 63)) then none
  else some ⟨lower s⟩

end Name

/-- The root name `"."`. -/
def rootName : Name := ⟨[dot]⟩

/-- src/ser.rs:113-123 `write_name` (the bytes appended to the writer). The label length is cast with `as u8`. -/
def writeName (name : Bytes) : Bytes :=
  let canonical := lower name
  if canonical = [dot] then [0]
  else ((splitDot canonical).map (fun label => UInt8.ofNat label.length :: label)).flatten

/-- src/ser.rs:124-134 `name_len`. -/
def nameLen (n : Name) : UInt16 :=
  if n.bytes = [dot] then 1
  else UInt16.ofNat ((splitDot n.bytes).foldl (fun res label => res + (1 + label.length)) 0)

end Dnssec
