import Verif.Model.RR
import Verif.Spec.Name
import Verif.Spec.Utf8

/-! # Specification of JSON (RFC 8259) and of the JSON form of records -/

namespace Dnssec.Spec

open Dnssec

/-- JSON values. Natural numbers are kept as such, other numbers by their text; strings as UTF-8. -/
inductive JVal
  | nat (n : Nat)
  | number (text : Bytes)
  | str (s : Bytes)
  | arr (vs : List JVal)
  | obj (ms : List (Bytes × JVal))
  | bool (b : Bool)
  | null

/-- RFC 8259 2: insignificant whitespace. -/
def Ws (w : Bytes) : Prop := ∀ c ∈ w, c = 32 ∨ c = 9 ∨ c = 10 ∨ c = 13

/-- The value of a sequence of decimal digits. -/
def digitsValue (ds : Bytes) : Nat := ds.foldl (fun v d => v * 10 + (d.toNat - 48)) 0

/-- RFC 8259 6: `int`, digits without leading zero. -/
structure IntText (t : Bytes) (n : Nat) : Prop where
  digits : ∀ c ∈ t, 48 ≤ c.toNat ∧ c.toNat ≤ 57
  nonempty : t ≠ []
  noLeadingZero : t = [48] ∨ t.head? ≠ some 48
  value : n = digitsValue t

/-- At least one decimal digit. -/
def Digits (t : Bytes) : Prop := t ≠ [] ∧ ∀ c ∈ t, 48 ≤ c.toNat ∧ c.toNat ≤ 57

/-- RFC 8259 6: `number = [ minus ] int [ frac ] [ exp ]`. -/
def NumberText (t : Bytes) : Prop :=
  ∃ sign int frac exp n, t = sign ++ (int ++ (frac ++ exp)) ∧ (sign = [] ∨ sign = [45]) ∧ IntText int n ∧
    (frac = [] ∨ ∃ ds, frac = 46 :: ds ∧ Digits ds) ∧
    (exp = [] ∨ ∃ e s ds, exp = e :: (s ++ ds) ∧ (e = 101 ∨ e = 69) ∧ (s = [] ∨ s = [45] ∨ s = [43]) ∧ Digits ds)

/-- The value of a hexadecimal digit. -/
def hexValue (c : UInt8) : Option Nat :=
  if 48 ≤ c.toNat ∧ c.toNat ≤ 57 then some (c.toNat - 48)
  else if 65 ≤ c.toNat ∧ c.toNat ≤ 70 then some (c.toNat - 55)
  else if 97 ≤ c.toNat ∧ c.toNat ≤ 102 then some (c.toNat - 87)
  else none

/-- The value of four hexadecimal digits. -/
def hex4 (a b c d : UInt8) : Option Nat := do
  pure ((← hexValue a) * 4096 + (← hexValue b) * 256 + (← hexValue c) * 16 + (← hexValue d))

/-- RFC 8259 7: two-character escapes and what they stand for. -/
def shortEscape (c : UInt8) : Option UInt8 :=
  if c = 34 then some 34          -- "
  else if c = 92 then some 92     -- \
  else if c = 47 then some 47     -- /
  else if c = 98 then some 8      -- b
  else if c = 102 then some 12    -- f
  else if c = 110 then some 10    -- n
  else if c = 114 then some 13    -- r
  else if c = 116 then some 9     -- t
  else none

/-- RFC 8259 7: the inside of a string, and the string it denotes. -/
inductive Chars : Bytes → Bytes → Prop
  | nil : Chars [] []
  | plain {c : UInt8} {t s : Bytes} : 32 ≤ c.toNat → c ≠ 34 → c ≠ 92 → Chars t s → Chars (c :: t) (c :: s)
  | escape {c d : UInt8} {t s : Bytes} : shortEscape c = some d → Chars t s → Chars (92 :: c :: t) (d :: s)
  | unicode {a b c d : UInt8} {n : Nat} {t s : Bytes} : hex4 a b c d = some n → ¬ (0xD800 ≤ n ∧ n < 0xE000) → Chars t s →
      Chars (92 :: 117 :: a :: b :: c :: d :: t) (utf8Encode n ++ s)
  | surrogates {a b c d a' b' c' d' : UInt8} {h l : Nat} {t s : Bytes} : hex4 a b c d = some h → 0xD800 ≤ h → h < 0xDC00 →
      hex4 a' b' c' d' = some l → 0xDC00 ≤ l → l < 0xE000 → Chars t s →
      Chars (92 :: 117 :: a :: b :: c :: d :: 92 :: 117 :: a' :: b' :: c' :: d' :: t)
        (utf8Encode (0x10000 + (h - 0xD800) * 1024 + (l - 0xDC00)) ++ s)

mutual
/-- RFC 8259 3: a text that is a value, and the value. -/
inductive Value : Bytes → JVal → Prop
  | nat {t : Bytes} {n : Nat} : IntText t n → Value t (.nat n)
  | number {t : Bytes} : NumberText t → (∀ n, ¬ IntText t n) → Value t (.number t)
  | str {t s : Bytes} : Chars t s → Value (34 :: (t ++ [34])) (.str s)
  | arrEmpty {w : Bytes} : Ws w → Value (91 :: (w ++ [93])) (.arr [])
  | arr {t : Bytes} {vs : List JVal} : Elems t vs → Value (91 :: (t ++ [93])) (.arr vs)
  | objEmpty {w : Bytes} : Ws w → Value (123 :: (w ++ [125])) (.obj [])
  | obj {t : Bytes} {ms : List (Bytes × JVal)} : Members t ms → Value (123 :: (t ++ [125])) (.obj ms)
  | true : Value [116, 114, 117, 101] (.bool true)
  | false : Value [102, 97, 108, 115, 101] (.bool false)
  | null : Value [110, 117, 108, 108] .null
/-- RFC 8259 5: the elements of a non-empty array. -/
inductive Elems : Bytes → List JVal → Prop
  | one {w1 t w2 : Bytes} {v : JVal} : Ws w1 → Value t v → Ws w2 → Elems (w1 ++ (t ++ w2)) [v]
  | cons {w1 t w2 ts : Bytes} {v : JVal} {vs : List JVal} : Ws w1 → Value t v → Ws w2 → Elems ts vs →
      Elems (w1 ++ (t ++ (w2 ++ 44 :: ts))) (v :: vs)
/-- RFC 8259 4: the members of a non-empty object. -/
inductive Members : Bytes → List (Bytes × JVal) → Prop
  | one {w1 k w2 w3 t w4 key : Bytes} {v : JVal} : Ws w1 → Chars k key → Ws w2 → Ws w3 → Value t v → Ws w4 →
      Members (w1 ++ (34 :: (k ++ (34 :: (w2 ++ (58 :: (w3 ++ (t ++ w4)))))))) [(key, v)]
  | cons {w1 k w2 w3 t w4 key ts : Bytes} {v : JVal} {ms : List (Bytes × JVal)} : Ws w1 → Chars k key → Ws w2 → Ws w3 → Value t v →
      Ws w4 → Members ts ms → Members (w1 ++ (34 :: (k ++ (34 :: (w2 ++ (58 :: (w3 ++ (t ++ (w4 ++ 44 :: ts))))))))) ((key, v) :: ms)
end

/-- RFC 8259 2 and 8.1: a JSON text, in UTF-8, and the value it denotes. -/
def JsonText (text : Bytes) (v : JVal) : Prop :=
  Utf8 text ∧ ∃ w1 t w2, text = w1 ++ (t ++ w2) ∧ Ws w1 ∧ Value t v ∧ Ws w2

/-! ### Records as JSON values -/

/-- A byte array as a JSON array of numbers. -/
def bytesArr (bs : Bytes) : JVal := .arr (bs.map (fun b => .nat b.toNat))

/-- Two hexadecimal digits for each byte. -/
def IsHex (bs : Bytes) (s : Bytes) : Prop :=
  s.length = 2 * bs.length ∧ ∀ i b, bs[i]? = some b → ∃ h l x y, s[2 * i]? = some h ∧ s[2 * i + 1]? = some l ∧
    hexValue h = some x ∧ hexValue l = some y ∧ b.toNat = x * 16 + y

/-- The mnemonics used for record types (IANA). -/
def mnemonics : List (Nat × Bytes) :=
  [(1, ascii "A"), (28, ascii "AAAA"), (2, ascii "NS"), (16, ascii "TXT"), (5, ascii "CNAME"), (39, ascii "DNAME"), (52, ascii "TLSA"),
   (48, ascii "DNSKEY"), (43, ascii "DS"), (46, ascii "RRSIG"), (47, ascii "NSEC"), (50, ascii "NSEC3")]

/-- The JSON form of a record type: its mnemonic if there is one, otherwise the number. -/
def TypeVal (t : Nat) (v : JVal) : Prop :=
  (∃ m, (t, m) ∈ mnemonics ∧ v = .str m) ∨ ((∀ m, (t, m) ∉ mnemonics) ∧ v = .nat t)

/-- The JSON form of a type mask: an array with exactly the types in the mask, each once. -/
def TypesVal (m : NSecTypeMask) (v : JVal) : Prop :=
  ∃ (ts : List UInt16) (vs : List JVal), ts.Nodup ∧ (∀ t, t ∈ ts ↔ m.containsType t = true) ∧ v = .arr vs ∧
    ts.length = vs.length ∧ ∀ p ∈ ts.zip vs, TypeVal p.1.toNat p.2

/-- Text data that can be put between quotes as it is: UTF-8 without control characters, quotes and backslashes. -/
def Printable (d : Bytes) : Prop :=
  ∃ cs : List Nat, (∀ c ∈ cs, Scalar c ∧ 32 ≤ c ∧ ¬ (127 ≤ c ∧ c ≤ 159) ∧ c ≠ 34 ∧ c ≠ 92) ∧ d = (cs.map utf8Encode).flatten

/-- The contents of a text record: a string if the data can be put between quotes as it is, and an array of bytes otherwise. -/
def ContentsVal (d : Bytes) (v : JVal) : Prop := (Printable d ∧ v = .str d) ∨ (¬ Printable d ∧ v = bytesArr d)

/-- The members of the JSON object for a record. -/
def JsonOf : RR → List (Bytes × JVal) → Prop
  | .a r, ms => ms = [(ascii "type", .str (ascii "a")), (ascii "name", .str r.name.bytes), (ascii "address", bytesArr r.address.1)]
  | .aaaa r, ms => ms = [(ascii "type", .str (ascii "aaaa")), (ascii "name", .str r.name.bytes), (ascii "address", bytesArr r.address.1)]
  | .ns r, ms => ms = [(ascii "type", .str (ascii "ns")), (ascii "name", .str r.name.bytes), (ascii "ns", .str r.nameServer.bytes)]
  | .txt r, ms => ∃ c, ContentsVal r.data c ∧
      ms = [(ascii "type", .str (ascii "txt")), (ascii "name", .str r.name.bytes), (ascii "contents", c)]
  | .tlsa r, ms => ∃ h, IsHex r.data h ∧
      ms = [(ascii "type", .str (ascii "tlsa")), (ascii "name", .str r.name.bytes), (ascii "usage", .nat r.certUsage.toNat),
        (ascii "selector", .nat r.selector.toNat), (ascii "data_ty", .nat r.dataTy.toNat), (ascii "data", .str h)]
  | .cname r, ms =>
      ms = [(ascii "type", .str (ascii "cname")), (ascii "name", .str r.name.bytes), (ascii "canonical_name", .str r.canonicalName.bytes)]
  | .dname r, ms =>
      ms = [(ascii "type", .str (ascii "dname")), (ascii "name", .str r.name.bytes), (ascii "delegation_name", .str r.delegationName.bytes)]
  | .dnskey r, ms => ∃ h, IsHex r.pubkey h ∧
      ms = [(ascii "type", .str (ascii "dnskey")), (ascii "name", .str r.name.bytes), (ascii "flags", .nat r.flags.toNat),
        (ascii "protocol", .nat r.protocol.toNat), (ascii "alg", .nat r.alg.toNat), (ascii "pubkey", .str h)]
  | .ds r, ms => ∃ h, IsHex r.digest h ∧
      ms = [(ascii "type", .str (ascii "ds")), (ascii "name", .str r.name.bytes), (ascii "key_tag", .nat r.keyTag.toNat),
        (ascii "alg", .nat r.alg.toNat), (ascii "digest_type", .nat r.digestType.toNat), (ascii "digest", .str h)]
  | .rrsig r, ms => ∃ h, IsHex r.signature h ∧
      ms = [(ascii "type", .str (ascii "rrsig")), (ascii "name", .str r.name.bytes), (ascii "signed_record_type", .nat r.ty.toNat),
        (ascii "alg", .nat r.alg.toNat), (ascii "signed_labels", .nat r.labels.toNat), (ascii "orig_ttl", .nat r.origTtl.toNat),
        (ascii "expiration", .nat r.expiration.toNat), (ascii "inception", .nat r.inception.toNat), (ascii "key_tag", .nat r.keyTag.toNat),
        (ascii "key_name", .str r.keyName.bytes), (ascii "signature", .str h)]
  | .nsec r, ms => ∃ ts, TypesVal r.types ts ∧
      ms = [(ascii "type", .str (ascii "nsec")), (ascii "name", .str r.name.bytes), (ascii "next_name", .str r.nextName.bytes),
        (ascii "types", ts)]
  | .nsec3 r, ms => ∃ ts, TypesVal r.types ts ∧
      ms = [(ascii "type", .str (ascii "nsec3")), (ascii "name", .str r.name.bytes), (ascii "hash_algo", .nat r.hashAlgo.toNat),
        (ascii "flags", .nat r.flags.toNat), (ascii "hash_iterations", .nat r.hashIterations.toNat), (ascii "salt", bytesArr r.salt),
        (ascii "next_name_hash", bytesArr r.nextNameHash), (ascii "types", ts)]

end Dnssec.Spec
