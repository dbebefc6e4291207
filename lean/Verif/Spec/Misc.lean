import Verif.Spec.Wire

/-! # Small specifications: key tag, base32hex, RSA keys, canonical name order, time -/

namespace Dnssec.Spec

/-- RFC 4034 Appendix B, the sum: octets at even positions count 256 times. -/
def keyTagSum : Bytes → Nat
  | [] => 0
  | [a] => a.toNat * 256
  | a :: b :: rest => a.toNat * 256 + b.toNat + keyTagSum rest

/-- RFC 4034 Appendix B: the key tag of DNSKEY RDATA (`ac += (ac >> 16) & 0xFFFF; return ac & 0xFFFF`, with an accumulator `ac` of 32
bits; it does not overflow for RDATA of at most 65535 bytes). -/
def keyTag (rdata : Bytes) : Nat :=
  let ac := keyTagSum rdata % 2 ^ 32
  (ac + ac / 65536 % 65536) % 65536

/-- A byte string as a big-endian number. -/
def beNat (d : Bytes) : Nat := d.foldl (fun acc b => acc * 256 + b.toNat) 0

/-- The `m` base-32 digits of `x`, most significant first. -/
def digits32 : Nat → Nat → List Nat
  | 0, _ => []
  | m + 1, x => digits32 m (x / 32) ++ [x % 32]

/-- RFC 4648 section 7 characters. -/
def hexChar (v : Nat) : UInt8 := (ascii "0123456789ABCDEFGHIJKLMNOPQRSTUV").getD v 0

/-- RFC 4648 section 7, "base32hex" without padding: the `8n` bits of the data, followed by zero bits up to a multiple of
five, five bits per character. -/
def base32hex (d : Bytes) : Bytes :=
  let m := (8 * d.length + 4) / 5
  (digits32 m (beNat d * 2 ^ (5 * m - 8 * d.length))).map hexChar

/-- ASCII upper case. -/
def toUpper (c : UInt8) : UInt8 := if 97 ≤ c.toNat ∧ c.toNat ≤ 122 then UInt8.ofNat (c.toNat - 32) else c

/-- RFC 3110 section 2: a public key is the length of the exponent (one octet, or zero and two octets), the exponent and
the modulus. -/
inductive RsaKey : Bytes → (exponent modulus : Bytes) → Prop
  | short (len : UInt8) (e n : Bytes) : len ≠ 0 → e.length = len.toNat → RsaKey (len :: (e ++ n)) e n
  | long (hi lo : UInt8) (e n : Bytes) : e.length = hi.toNat * 256 + lo.toNat → RsaKey (0 :: hi :: lo :: (e ++ n)) e n

/-- RFC 4034 6.1 on label sequences given from the right (most significant first): the first difference decides, labels
compare as case-folded octet strings, and absence of a label sorts first. -/
inductive LabelsLt : List Bytes → List Bytes → Prop
  | nil (l : Bytes) (ls : List Bytes) : LabelsLt [] (l :: ls)
  | head (a b : Bytes) (as bs : List Bytes) : OctetLt (a.map foldCase) (b.map foldCase) → LabelsLt (a :: as) (b :: bs)
  | tail (a b : Bytes) (as bs : List Bytes) : a.map foldCase = b.map foldCase → LabelsLt as bs → LabelsLt (a :: as) (b :: bs)

/-- RFC 4034 6.1 canonical order of names, by their labels from left to right. -/
def CanonicalLt (a b : List Bytes) : Prop := LabelsLt a.reverse b.reverse

/-- The same order on names given as texts (equal to `CanonicalLt` on the labels, theorem `C17_texts`). -/
def TextLt (a b : Bytes) : Prop := LabelsLt (cutAtDots a).reverse (cutAtDots b).reverse

/-- The instant a time in an RRSIG stands for according to this crate: the time itself, or, for times before 1997 (27 years of 365 days
after 1970), the time plus 2^32 - 1. (What it should be and where this differs is C18.) -/
def instant (t : UInt32) : Nat := if t.toNat < 27 * 365 * 86400 then t.toNat + (2 ^ 32 - 1) else t.toNat

/-- The value of a hexadecimal digit. -/
def hexVal (c : UInt8) : UInt8 := if c.toNat ≤ 57 then c - 48 else c - 55

/-- Bytes given by hexadecimal digits. -/
def unhex : Bytes → Bytes
  | hi :: lo :: rest => (hexVal hi * 16 + hexVal lo) :: unhex rest
  | _ => []

end Dnssec.Spec
