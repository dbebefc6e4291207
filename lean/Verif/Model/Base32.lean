import Verif.Model.Basic

/-! # Model of src/base32.rs (RFC 4648 "extended hex" without padding) -/

namespace Dnssec.Base32

/-- src/base32.rs:15 `RFC4648_ALPHABET` -/
def alphabet : Bytes :=
  [48, 49, 50, 51, 52, 53, 54, 55, 56, 57, 65, 66, 67, 68, 69, 70, 71, 72, 73, 74, 75, 76, 77, 78, 79, 80, 81, 82, 83,
   84, 85, 86]

/-- src/base32.rs:18-21 `RFC4648_INV_ALPHABET`; `none` is `-1`. -/
def invAlphabet : List (Option UInt8) :=
  [some 0, some 1, some 2, some 3, some 4, some 5, some 6, some 7, some 8, some 9,
   none, none, none, none, none, none, none,
   some 10, some 11, some 12, some 13, some 14, some 15, some 16, some 17, some 18, some 19, some 20, some 21, some 22,
   some 23, some 24, some 25, some 26, some 27, some 28, some 29, some 30, some 31]

/-- src/base32.rs:88-91: value of one character, `none` = `Err(())`. Lower case is accepted. -/
def charValue (c : UInt8) : Option UInt8 :=
  match invAlphabet[(upperByte c - 48).toNat]? with
  | some (some v) => some v
  | _ => none

/-- `alphabet[i]` (an index ≥ 32 would panic; every index below is masked to 5 bits). -/
def alpha (i : UInt8) : UInt8 := alphabet.getD i.toNat 0

/-- `data.chunks(n)`; fuel is the length. -/
def chunks (n : Nat) : Nat → Bytes → List Bytes
  | 0, _ => []
  | fuel + 1, l => if l.isEmpty then [] else l.take n :: chunks n fuel (l.drop n)

/-- src/base32.rs:59-70: the eight characters of one (zero-padded) five byte chunk. -/
def encodeChunk (chunk : Bytes) : Bytes :=
  let b (i : Nat) : UInt8 := chunk.getD i 0
  [alpha ((b 0 &&& 0xF8) >>> 3),
   alpha (((b 0 &&& 0x07) <<< 2) ||| ((b 1 &&& 0xC0) >>> 6)),
   alpha ((b 1 &&& 0x3E) >>> 1),
   alpha (((b 1 &&& 0x01) <<< 4) ||| ((b 2 &&& 0xF0) >>> 4)),
   alpha (((b 2 &&& 0x0F) <<< 1) ||| (b 3 >>> 7)),
   alpha ((b 3 &&& 0x7C) >>> 2),
   alpha (((b 3 &&& 0x03) <<< 3) ||| ((b 4 &&& 0xE0) >>> 5)),
   alpha (b 4 &&& 0x1F)]

/-- src/base32.rs:51-76 `encode_data` -/
def encodeData (data : Bytes) : Bytes := ((chunks 5 data.length data).map encodeChunk).flatten

/-- src/base32.rs:25-38 `encode` -/
def encode (data : Bytes) : Bytes := (encodeData data).take ((data.length * 8 + 4) / 5)

/-- src/base32.rs:86-92: the values of one chunk of characters. -/
def chunkValues : Bytes → Option Bytes
  | [] => some []
  | c :: cs =>
    match charValue c with
    | none => none
    | some v => (chunkValues cs).map (v :: ·)

/-- src/base32.rs:93-97: the five bytes of one (zero-padded) chunk of eight values. -/
def decodeChunk (vals : Bytes) : Bytes :=
  let b (i : Nat) : UInt8 := vals.getD i 0
  [(b 0 <<< 3) ||| (b 1 >>> 2),
   (b 1 <<< 6) ||| (b 2 <<< 1) ||| (b 3 >>> 4),
   (b 3 <<< 4) ||| (b 4 >>> 1),
   (b 4 <<< 7) ||| (b 5 <<< 2) ||| (b 6 >>> 3),
   (b 6 <<< 5) ||| b 7]

/-- src/base32.rs:85-98: the `for chunk in data.chunks(8)` loop. -/
def decodeChunks : List Bytes → Option Bytes
  | [] => some []
  | c :: cs =>
    match chunkValues c with
    | none => none
    | some vals => (decodeChunks cs).map (decodeChunk vals ++ ·)

/-- src/base32.rs:78-112 `decode_data` -/
def decodeData (data : Bytes) : Option Bytes :=
  match decodeChunks (chunks 8 data.length data) with
  | none => none
  | some ret =>
    let outputLength := data.length * 5 / 8
    if (ret.drop outputLength).any (fun c => c != 0) then none
    else some (ret.take outputLength)

/-- src/base32.rs:41-47 `decode` -/
def decode (data : Bytes) : Option Bytes :=
  if data.length % 8 = 1 ∨ data.length % 8 = 3 ∨ data.length % 8 = 6 then none
  else decodeData data

end Dnssec.Base32
