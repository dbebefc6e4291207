/-!
# Basic vocabulary of the model

Bytes, Rust `Result`-with-panics, big-endian integers, and the few `core`/`alloc` string functions the crate uses.
Rust strings are modelled by their UTF-8 bytes.
-/

namespace Dnssec

/-- `&[u8]`, `Vec<u8>`, `String`, `&str` (strings by their UTF-8 bytes). -/
abbrev Bytes := List UInt8

/-- What a Rust function returning `Result<α, ε>` can do: return `Ok`, return `Err`, or panic. -/
inductive Res (ε α : Type) where
  | ok (a : α)
  | err (e : ε)
  | panic
deriving DecidableEq, Repr

namespace Res

/-- The `?` operator. A panic propagates. -/
@[simp] def bind {ε α β : Type} : Res ε α → (α → Res ε β) → Res ε β
  | ok a, f => f a
  | err e, _ => err e
  | panic, _ => panic

/-- `Result::map`. -/
@[simp] def map {ε α β : Type} (f : α → β) : Res ε α → Res ε β
  | ok a => ok (f a)
  | err e => err e
  | panic => panic

instance {ε : Type} : Monad (Res ε) where
  pure := ok
  bind := bind

@[simp] theorem pure_eq {ε α : Type} (a : α) : (pure a : Res ε α) = ok a := rfl
@[simp] theorem ok_bind {ε α β : Type} (a : α) (f : α → Res ε β) : (ok a >>= f) = f a := rfl
@[simp] theorem err_bind {ε α β : Type} (e : ε) (f : α → Res ε β) : ((err e : Res ε α) >>= f) = err e := rfl
@[simp] theorem panic_bind {ε α β : Type} (f : α → Res ε β) : ((panic : Res ε α) >>= f) = panic := rfl

end Res

/-- Result of a parser: the value and the remaining input. Rust: `Result<_, ()>` with an advanced `&mut &[u8]`. -/
abbrev PRes (α : Type) := Res Unit (α × Bytes)

/-! ### Big-endian integers (`to_be_bytes` / `from_be_bytes`) -/

/-- `u16::to_be_bytes`. -/
def be16 (x : UInt16) : Bytes := [UInt8.ofNat (x.toNat / 256), UInt8.ofNat (x.toNat % 256)]

/-- `u32::to_be_bytes`. -/
def be32 (x : UInt32) : Bytes :=
  [UInt8.ofNat (x.toNat / 16777216), UInt8.ofNat (x.toNat / 65536 % 256),
   UInt8.ofNat (x.toNat / 256 % 256), UInt8.ofNat (x.toNat % 256)]

/-- `u16::from_be_bytes`. -/
def ofBe16 (a b : UInt8) : UInt16 := UInt16.ofNat (a.toNat * 256 + b.toNat)

/-- `u32::from_be_bytes`. -/
def ofBe32 (a b c d : UInt8) : UInt32 :=
  UInt32.ofNat (a.toNat * 16777216 + b.toNat * 65536 + c.toNat * 256 + d.toNat)

/-! ### ASCII and string helpers of `core`/`alloc` -/

/-- The byte `'.'`. -/
abbrev dot : UInt8 := 46

/-- `u8::to_ascii_lowercase`. -/
def lowerByte (b : UInt8) : UInt8 := if 65 ≤ b && b ≤ 90 then b + 32 else b

/-- `u8::to_ascii_uppercase`. -/
def upperByte (b : UInt8) : UInt8 := if 97 ≤ b && b ≤ 122 then b - 32 else b

/-- `str::to_ascii_lowercase`. -/
def lower (s : Bytes) : Bytes := s.map lowerByte

/-- `char::is_ascii_graphic` on the bytes of a string (a non-ASCII `char` consists of bytes ≥ 0x80). -/
def isGraphic (b : UInt8) : Bool := 33 ≤ b && b ≤ 126

/-- `s.split(".")`: always at least one piece. -/
def splitDot : Bytes → List Bytes
  | [] => [[]]
  | b :: bs =>
    if b = dot then [] :: splitDot bs
    else match splitDot bs with
      | [] => [[b]]
      | l :: ls => (b :: l) :: ls

/-- `s.rsplit(".")`: the pieces from the right. -/
def rsplitDot (s : Bytes) : List Bytes := (splitDot s).reverse

/-- `s.split_once(".")`. -/
def splitOnceDot : Bytes → Option (Bytes × Bytes)
  | [] => none
  | b :: bs =>
    if b = dot then some ([], bs)
    else match splitOnceDot bs with
      | none => none
      | some (l, r) => some (b :: l, r)

/-- `s.splitn(n, ".")`: at most `n` pieces, the last one being the unsplit rest. -/
def splitnDot : Nat → Bytes → List Bytes
  | 0, _ => []
  | 1, s => [s]
  | n + 2, s =>
    match splitOnceDot s with
    | none => [s]
    | some (l, r) => l :: splitnDot (n + 1) r

/-- `s.ends_with(suffix)`. -/
def endsWith (s suffix : Bytes) : Bool := suffix.isSuffixOf s

/-- `s.strip_suffix(suffix)`. -/
def stripSuffix (s suffix : Bytes) : Option Bytes :=
  if endsWith s suffix then some (s.take (s.length - suffix.length)) else none

/-- A UTF-8 continuation byte, `10xxxxxx`. -/
def utf8Cont (b : UInt8) : Bool := 0x80 ≤ b && b ≤ 0xBF

/-- `core::str::from_utf8` followed by `.chars()`: the code points of a byte string, or `none` if it is not valid UTF-8
(RFC 3629 table: no overlong forms, no surrogates, at most U+10FFFF). -/
def utf8Decode : Bytes → Option (List Nat)
  | [] => some []
  | b0 :: rest =>
    if b0 < 0x80 then (utf8Decode rest).map (b0.toNat :: ·)
    else if 0xC2 ≤ b0 && b0 ≤ 0xDF then
      match rest with
      | b1 :: r =>
        if utf8Cont b1 then
          (utf8Decode r).map (((b0.toNat - 0xC0) * 64 + (b1.toNat - 0x80)) :: ·)
        else none
      | _ => none
    else if 0xE0 ≤ b0 && b0 ≤ 0xEF then
      match rest with
      | b1 :: b2 :: r =>
        if utf8Cont b1 && utf8Cont b2 && !(b0 == 0xE0 && b1 < 0xA0) && !(b0 == 0xED && 0xA0 ≤ b1) then
          (utf8Decode r).map
            (((b0.toNat - 0xE0) * 4096 + (b1.toNat - 0x80) * 64 + (b2.toNat - 0x80)) :: ·)
        else none
      | _ => none
    else if 0xF0 ≤ b0 && b0 ≤ 0xF4 then
      match rest with
      | b1 :: b2 :: b3 :: r =>
        if utf8Cont b1 && utf8Cont b2 && utf8Cont b3 && !(b0 == 0xF0 && b1 < 0x90) && !(b0 == 0xF4 && 0x90 ≤ b1) then
          (utf8Decode r).map
            (((b0.toNat - 0xF0) * 262144 + (b1.toNat - 0x80) * 4096 + (b2.toNat - 0x80) * 64 + (b3.toNat - 0x80)) :: ·)
        else none
      | _ => none
    else none

/-- `core::str::from_utf8(s).is_ok()`. -/
def utf8Valid (s : Bytes) : Bool := (utf8Decode s).isSome

/-- `<[u8] as Ord>::cmp`: lexicographic, a proper prefix is smaller. Also `<str as Ord>::cmp`. -/
def cmpBytes (a b : Bytes) : Ordering := List.compareLex compare a b

/-- ASCII text literals as bytes. -/
def ascii (s : String) : Bytes := s.toList.map fun c => UInt8.ofNat c.toNat

end Dnssec
