import Verif.Model.RR

/-! # Model of the JSON output (src/rr.rs `json`) -/

namespace Dnssec

/-! ### The formatting macros used -/

/-- The ASCII digit. -/
def digit (n : Nat) : UInt8 := UInt8.ofNat (48 + n)

/-- Helper of `decimal`; the first argument bounds the number of further digits. -/
def decimalAux : Nat → Nat → Bytes
  | 0, n => [digit n]
  | f + 1, n => if n < 10 then [digit n] else decimalAux f (n / 10) ++ [digit (n % 10)]

/-- `{}` of an unsigned integer: decimal without leading zeroes. -/
def decimal (n : Nat) : Bytes := decimalAux n n

/-- One upper case hexadecimal digit. -/
def hexDigit (n : Nat) : UInt8 := if n < 10 then UInt8.ofNat (48 + n) else UInt8.ofNat (55 + n)

/-- `{:02X}` of a byte. -/
def hexByte (b : UInt8) : Bytes := [hexDigit (b.toNat / 16), hexDigit (b.toNat % 16)]

/-- The `for c in .. { write!(&mut out, "{:02X}", c) }` loops. -/
def hex (bs : Bytes) : Bytes := (bs.map hexByte).flatten

/-- The elements of `debugBytes`, separated by `", "`. -/
def debugElems : Bytes → Bytes
  | [] => []
  | [b] => decimal b.toNat
  | b :: bs => decimal b.toNat ++ (ascii ", " ++ debugElems bs)

/-- `{:?}` of a `&[u8]`. -/
def debugBytes (bs : Bytes) : Bytes := ascii "[" ++ (debugElems bs ++ ascii "]")

/-- `char::is_control`: general category Cc. -/
def isControl (c : Nat) : Bool := decide (c < 32) || (decide (127 ≤ c) && decide (c < 160))

/-! ### Records -/

/-- src/rr.rs:176-192 `RR::ty_to_rr_name`. -/
def tyToRRName (ty : UInt16) : Option Bytes :=
  if ty = aType then some (ascii "A")
  else if ty = aaaaType then some (ascii "AAAA")
  else if ty = nsType then some (ascii "NS")
  else if ty = txtType then some (ascii "TXT")
  else if ty = cnameType then some (ascii "CNAME")
  else if ty = dnameType then some (ascii "DNAME")
  else if ty = tlsaType then some (ascii "TLSA")
  else if ty = dnskeyType then some (ascii "DNSKEY")
  else if ty = dsType then some (ascii "DS")
  else if ty = rrsigType then some (ascii "RRSIG")
  else if ty = nsecType then some (ascii "NSEC")
  else if ty = nsec3Type then some (ascii "NSEC3")
  else none

/-- The `match RR::ty_to_rr_name(ty)`, src/rr.rs:666-669. -/
def typeJson (ty : UInt16) : Bytes :=
  match tyToRRName ty with
  | some name => ascii "\"" ++ (name ++ ascii "\"")
  | none => decimal ty.toNat

/-- The `for b in 0..8` loop, src/rr.rs:659-671, over the remaining values of `b`; the state is the string and
`have_written`. -/
def bitsJson (idx : Nat) (mask : UInt8) : List Nat → Bytes × Bool → Bytes × Bool
  | [], st => st
  | b :: bs, (s, w) =>
    if mask &&& (1 <<< UInt8.ofNat b) ≠ 0 then
      bitsJson idx mask bs
        ((if w then s ++ ascii "," else s) ++ typeJson ((UInt16.ofNat idx <<< 3) ||| UInt16.ofNat (7 - b)), true)
    else bitsJson idx mask bs (s, w)

/-- The loop over the bytes, src/rr.rs:657-672, from position `idx` on. -/
def masksJson : Nat → Bytes → Bytes × Bool → Bytes × Bool
  | _, [], st => st
  | idx, mask :: ms, st =>
    if mask = 0 then masksJson (idx + 1) ms st
    else masksJson (idx + 1) ms (bitsJson idx mask (List.range 8) st)

/-- src/rr.rs:654-674 `NSecTypeMask::write_json`: what is appended. The string is only ever appended to, so the model starts
from the empty one. -/
def NSecTypeMask.json (m : NSecTypeMask) : Bytes := (masksJson 0 m.bytes.1 (ascii "[", false)).1 ++ ascii "]"

/-- src/rr.rs:279-286 -/
def Txt.json (r : Txt) : Bytes :=
  let fallback := ascii "{\"type\":\"txt\",\"name\":\"" ++ (r.name.bytes ++ (ascii "\",\"contents\":" ++ (debugBytes r.data ++ ascii "}")))
  match utf8Decode r.data with
  | some cs =>
    if cs.all (fun c => !isControl c && decide (c ≠ 34) && decide (c ≠ 92)) then
      ascii "{\"type\":\"txt\",\"name\":\"" ++ (r.name.bytes ++ (ascii "\",\"contents\":\"" ++ (r.data ++ ascii "\"}")))
    else fallback
  | none => fallback

/-- src/rr.rs:339-351 -/
def TLSA.json (r : TLSA) : Bytes :=
  ascii "{\"type\":\"tlsa\",\"name\":\"" ++ (r.name.bytes ++ (ascii "\",\"usage\":" ++ (decimal r.certUsage.toNat ++
  (ascii ",\"selector\":" ++ (decimal r.selector.toNat ++ (ascii ",\"data_ty\":" ++ (decimal r.dataTy.toNat ++
  (ascii ",\"data\":\"" ++ (hex r.data ++ ascii "\"}")))))))))

/-- src/rr.rs:379-382 -/
def CName.json (r : CName) : Bytes :=
  ascii "{\"type\":\"cname\",\"name\":\"" ++ (r.name.bytes ++ (ascii "\",\"canonical_name\":\"" ++ (r.canonicalName.bytes ++ ascii "\"}")))

/-- src/rr.rs:410-413 -/
def DName.json (r : DName) : Bytes :=
  ascii "{\"type\":\"dname\",\"name\":\"" ++ (r.name.bytes ++ (ascii "\",\"delegation_name\":\"" ++ (r.delegationName.bytes ++ ascii "\"}")))

/-- src/rr.rs:444-456 -/
def DnsKey.json (r : DnsKey) : Bytes :=
  ascii "{\"type\":\"dnskey\",\"name\":\"" ++ (r.name.bytes ++ (ascii "\",\"flags\":" ++ (decimal r.flags.toNat ++
  (ascii ",\"protocol\":" ++ (decimal r.protocol.toNat ++ (ascii ",\"alg\":" ++ (decimal r.alg.toNat ++
  (ascii ",\"pubkey\":\"" ++ (hex r.pubkey ++ ascii "\"}")))))))))

/-- src/rr.rs:515-527 -/
def DS.json (r : DS) : Bytes :=
  ascii "{\"type\":\"ds\",\"name\":\"" ++ (r.name.bytes ++ (ascii "\",\"key_tag\":" ++ (decimal r.keyTag.toNat ++
  (ascii ",\"alg\":" ++ (decimal r.alg.toNat ++ (ascii ",\"digest_type\":" ++ (decimal r.digestType.toNat ++
  (ascii ",\"digest\":\"" ++ (hex r.digest ++ ascii "\"}")))))))))

/-- src/rr.rs:590-602 (with `"type":"ds"` and without the colon after `"expiration"`, as in the source). -/
def RRSig.json (r : RRSig) : Bytes :=
  ascii "{\"type\":\"ds\",\"name\":\"" ++ (r.name.bytes ++ (ascii "\",\"signed_record_type\":" ++ (decimal r.ty.toNat ++
  (ascii ",\"alg\":" ++ (decimal r.alg.toNat ++ (ascii ",\"signed_labels\":" ++ (decimal r.labels.toNat ++
  (ascii ",\"orig_ttl\":" ++ (decimal r.origTtl.toNat ++ (ascii ",\"expiration\"" ++ (decimal r.expiration.toNat ++
  (ascii ",\"inception\":" ++ (decimal r.inception.toNat ++ (ascii ",\"key_tag\":" ++ (decimal r.keyTag.toNat ++
  (ascii ",\"key_name\":\"" ++ (r.keyName.bytes ++ (ascii "\",\"signature\":\"" ++ (hex r.signature ++ ascii "\"}")))))))))))))))))))

/-- src/rr.rs:693-702 -/
def NSec.json (r : NSec) : Bytes :=
  ascii "{\"type\":\"nsec\",\"name\":\"" ++ (r.name.bytes ++ (ascii "\",\"next_name\":\"" ++ (r.nextName.bytes ++
  (ascii "\",\"types\":" ++ (r.types.json ++ ascii "}")))))

/-- src/rr.rs:749-758 -/
def NSec3.json (r : NSec3) : Bytes :=
  ascii "{\"type\":\"nsec3\",\"name\":\"" ++ (r.name.bytes ++ (ascii "\",\"hash_algo\":" ++ (decimal r.hashAlgo.toNat ++
  (ascii ",\"flags\":" ++ (decimal r.flags.toNat ++ (ascii ",\"hash_iterations\":" ++ (decimal r.hashIterations.toNat ++
  (ascii ",\"salt\":" ++ (debugBytes r.salt ++ (ascii ",\"next_name_hash\":" ++ (debugBytes r.nextNameHash ++
  (ascii ",\"types\":" ++ (r.types.json ++ ascii "}")))))))))))))

/-- src/rr.rs:797-799 -/
def A.json (r : A) : Bytes :=
  ascii "{\"type\":\"a\",\"name\":\"" ++ (r.name.bytes ++ (ascii "\",\"address\":" ++ (debugBytes r.address.1 ++ ascii "}")))

/-- src/rr.rs:825-827 -/
def AAAA.json (r : AAAA) : Bytes :=
  ascii "{\"type\":\"aaaa\",\"name\":\"" ++ (r.name.bytes ++ (ascii "\",\"address\":" ++ (debugBytes r.address.1 ++ ascii "}")))

/-- src/rr.rs:856-858 -/
def NS.json (r : NS) : Bytes :=
  ascii "{\"type\":\"ns\",\"name\":\"" ++ (r.name.bytes ++ (ascii "\",\"ns\":\"" ++ (r.nameServer.bytes ++ ascii "\"}")))

/-- src/rr.rs:128-143 `RR::json`. -/
def RR.json : RR → Bytes
  | a r => r.json
  | aaaa r => r.json
  | ns r => r.json
  | txt r => r.json
  | cname r => r.json
  | dname r => r.json
  | tlsa r => r.json
  | dnskey r => r.json
  | ds r => r.json
  | rrsig r => r.json
  | nsec r => r.json
  | nsec3 r => r.json

end Dnssec
