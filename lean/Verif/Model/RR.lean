import Verif.Model.Name

/-! # Model of the resource records (src/rr.rs): types, writers, comparison, key tag, type masks -/

namespace Dnssec

/-- `[u8; n]`. -/
abbrev FixedBytes (n : Nat) := { l : Bytes // l.length = n }

/-- src/rr.rs:248-256 -/
structure Txt where
  name : Name
  data : Bytes
deriving DecidableEq

/-- src/rr.rs:321-333 -/
structure TLSA where
  name : Name
  certUsage : UInt8
  selector : UInt8
  dataTy : UInt8
  data : Bytes
deriving DecidableEq

/-- src/rr.rs:368-375 -/
structure CName where
  name : Name
  canonicalName : Name
deriving DecidableEq

/-- src/rr.rs:398-406 -/
structure DName where
  name : Name
  delegationName : Name
deriving DecidableEq

/-- src/rr.rs:429-440 -/
structure DnsKey where
  name : Name
  flags : UInt16
  protocol : UInt8
  alg : UInt8
  pubkey : Bytes
deriving DecidableEq

/-- src/rr.rs:493-511 -/
structure DS where
  name : Name
  keyTag : UInt16
  alg : UInt8
  digestType : UInt8
  digest : Bytes
deriving DecidableEq

/-- src/rr.rs:547-586 -/
structure RRSig where
  name : Name
  ty : UInt16
  alg : UInt8
  labels : UInt8
  origTtl : UInt32
  expiration : UInt32
  inception : UInt32
  keyTag : UInt16
  keyName : Name
  signature : Bytes
deriving DecidableEq

/-- src/rr.rs:631 `NSecTypeMask([u8; 8192])` -/
structure NSecTypeMask where
  bytes : FixedBytes 8192
deriving DecidableEq

/-- src/rr.rs:680-689 -/
structure NSec where
  name : Name
  nextName : Name
  types : NSecTypeMask
deriving DecidableEq

/-- src/rr.rs:722-745 -/
structure NSec3 where
  name : Name
  hashAlgo : UInt8
  flags : UInt8
  hashIterations : UInt16
  salt : Bytes
  nextNameHash : Bytes
  types : NSecTypeMask
deriving DecidableEq

/-- src/rr.rs:786-791 -/
structure A where
  name : Name
  address : FixedBytes 4
deriving DecidableEq

/-- src/rr.rs:814-819 -/
structure AAAA where
  name : Name
  address : FixedBytes 16
deriving DecidableEq

/-- src/rr.rs:843-852 -/
structure NS where
  name : Name
  nameServer : Name
deriving DecidableEq

/-- src/rr.rs:83-108 `enum RR`, constructors in declaration order. -/
inductive RR where
  | a (r : A)
  | aaaa (r : AAAA)
  | ns (r : NS)
  | txt (r : Txt)
  | tlsa (r : TLSA)
  | cname (r : CName)
  | dname (r : DName)
  | dnskey (r : DnsKey)
  | ds (r : DS)
  | rrsig (r : RRSig)
  | nsec (r : NSec)
  | nsec3 (r : NSec3)
deriving DecidableEq

/-! ### Type numbers (src/rr.rs `const TYPE`) -/

/-- src/rr.rs:793 -/ abbrev aType : UInt16 := 1
/-- src/rr.rs:854 -/ abbrev nsType : UInt16 := 2
/-- src/rr.rs:377 -/ abbrev cnameType : UInt16 := 5
/-- src/rr.rs:258 -/ abbrev txtType : UInt16 := 16
/-- src/rr.rs:821 -/ abbrev aaaaType : UInt16 := 28
/-- src/rr.rs:408 -/ abbrev dnameType : UInt16 := 39
/-- src/rr.rs:513 -/ abbrev dsType : UInt16 := 43
/-- src/rr.rs:588 -/ abbrev rrsigType : UInt16 := 46
/-- src/rr.rs:691 -/ abbrev nsecType : UInt16 := 47
/-- src/rr.rs:442 -/ abbrev dnskeyType : UInt16 := 48
/-- src/rr.rs:747 -/ abbrev nsec3Type : UInt16 := 50
/-- src/rr.rs:335 -/ abbrev tlsaType : UInt16 := 52

namespace RR

/-- src/rr.rs:111-126 `RR::name`. -/
def name : RR → Name
  | a r => r.name
  | aaaa r => r.name
  | ns r => r.name
  | txt r => r.name
  | cname r => r.name
  | dname r => r.name
  | tlsa r => r.name
  | dnskey r => r.name
  | ds r => r.name
  | rrsig r => r.name
  | nsec r => r.name
  | nsec3 r => r.name

/-- src/rr.rs:144-159 `RR::ty`. -/
def ty : RR → UInt16
  | a _ => aType
  | aaaa _ => aaaaType
  | ns _ => nsType
  | txt _ => txtType
  | cname _ => cnameType
  | dname _ => dnameType
  | tlsa _ => tlsaType
  | dnskey _ => dnskeyType
  | ds _ => dsType
  | rrsig _ => rrsigType
  | nsec _ => nsecType
  | nsec3 _ => nsec3Type

end RR

/-! ### Type masks -/

namespace NSecTypeMask

/-- src/rr.rs:634 `NSecTypeMask::new`. -/
def new : NSecTypeMask := ⟨⟨List.replicate 8192 0, List.length_replicate⟩⟩

/-- The loop body of src/rr.rs:639 `flags[*t as usize >> 3] |= 1 << (7 - (*t as usize % 8))`.
(`t >> 3 < 8192` for every `u16`, so the index is in range.) -/
def setType (m : NSecTypeMask) (t : UInt16) : NSecTypeMask :=
  ⟨⟨m.bytes.1.modify (t.toNat >>> 3) (fun f => f ||| (1 <<< (UInt8.ofNat (7 - t.toNat % 8)))),
    by simp [m.bytes.2]⟩⟩

/-- src/rr.rs:636-646 `NSecTypeMask::from_types`. -/
def fromTypes (types : List UInt16) : NSecTypeMask := types.foldl setType new

/-- src/rr.rs:649-653 `NSecTypeMask::contains_type`. -/
def containsType (m : NSecTypeMask) (ty : UInt16) : Bool :=
  let f := m.bytes.1[ty.toNat >>> 3]'(by
    rw [m.bytes.2, Nat.shiftRight_eq_div_pow]; have := ty.toNat_lt; omega)
  f &&& (1 <<< (UInt8.ofNat (7 - ty.toNat % 8))) != 0

end NSecTypeMask

/-! ### NSEC type bitmaps (src/ser.rs) -/

/-- `types.chunks(32)` for a slice. -/
def chunks32 : Nat → Bytes → List Bytes
  | 0, _ => []
  | fuel + 1, l => if l.isEmpty then [] else l.take 32 :: chunks32 fuel (l.drop 32)

/-- `flags.iter().rposition(|flag| *flag != 0)`: index of the last non-zero byte. -/
def rposNonzero : Bytes → Option Nat
  | [] => none
  | b :: bs => match rposNonzero bs with
    | some i => some (i + 1)
    | none => if b != 0 then some 0 else none

/-- One iteration of the loop in src/ser.rs:40-49 (window number `idx`, its 32 flag bytes). -/
def writeWindow (idx : Nat) (flags : Bytes) : Bytes :=
  if flags ≠ List.replicate 32 0 then
    let last := (rposNonzero flags).getD 0
    UInt8.ofNat idx :: (UInt8.ofNat last + 1) :: flags.take (last + 1)
  else []

/-- src/ser.rs:39-50 `write_nsec_types_bitmap`; `enumerate()` is `zipIdx`. -/
def writeNsecTypesBitmap (types : Bytes) : Bytes :=
  ((chunks32 types.length types).zipIdx.map (fun (flags, idx) => writeWindow idx flags)).flatten

/-- src/ser.rs:51-61 `nsec_types_bitmap_len` (`u16` accumulation). -/
def nsecTypesBitmapLen (types : Bytes) : UInt16 :=
  (chunks32 types.length types).foldl (fun total flags =>
    if flags ≠ List.replicate 32 0 then
      total + (3 + UInt16.ofNat ((rposNonzero flags).getD 0))
    else total) 0

/-! ### Writers: `write_u16_len_prefixed_data` -/

/-- `data_write.len().try_into().unwrap_or(255)` (src/rr.rs:303,309). -/
def txtLenByte (d : Bytes) : UInt8 := if d.length ≤ 255 then UInt8.ofNat d.length else 255

/-- The `while` loop of src/rr.rs:304-311; every iteration removes at least one byte so `fuel = data.len()` suffices. -/
def txtWriteLoop : Nat → Bytes → Bytes
  | 0, _ => []
  | fuel + 1, d =>
    if d.isEmpty then []
    else
      let splitPos := min 255 d.length
      let rest := d.drop splitPos
      d.take splitPos ++ (if rest.isEmpty then [] else [txtLenByte rest]) ++ txtWriteLoop fuel rest

/-- src/rr.rs:298-312 -/
def Txt.writeData (r : Txt) : Bytes :=
  be16 (UInt16.ofNat (r.data.length + (r.data.length + 254) / 255))
    ++ [txtLenByte r.data] ++ txtWriteLoop r.data.length r.data

/-- src/rr.rs:358-363 -/
def TLSA.writeData (r : TLSA) : Bytes :=
  be16 (UInt16.ofNat (3 + r.data.length)) ++ [r.certUsage, r.selector, r.dataTy] ++ r.data

/-- src/rr.rs:388-392 -/
def CName.writeData (r : CName) : Bytes := be16 (nameLen r.canonicalName) ++ writeName r.canonicalName.bytes

/-- src/rr.rs:419-423 -/
def DName.writeData (r : DName) : Bytes := be16 (nameLen r.delegationName) ++ writeName r.delegationName.bytes

/-- src/rr.rs:463-470 -/
def DnsKey.writeData (r : DnsKey) : Bytes :=
  be16 (UInt16.ofNat (2 + 1 + 1 + r.pubkey.length)) ++ be16 r.flags ++ [r.protocol] ++ [r.alg] ++ r.pubkey

/-- src/rr.rs:534-541 -/
def DS.writeData (r : DS) : Bytes :=
  be16 (UInt16.ofNat (2 + 1 + 1 + r.digest.length)) ++ be16 r.keyTag ++ [r.alg] ++ [r.digestType] ++ r.digest

/-- src/rr.rs:613-625 (`u16` addition). -/
def RRSig.writeData (r : RRSig) : Bytes :=
  be16 (2 + 1 + 1 + 4*3 + 2 + nameLen r.keyName + UInt16.ofNat r.signature.length)
    ++ be16 r.ty ++ [r.alg] ++ [r.labels] ++ be32 r.origTtl ++ be32 r.expiration ++ be32 r.inception
    ++ be16 r.keyTag ++ writeName r.keyName.bytes ++ r.signature

/-- src/rr.rs:711-716 -/
def NSec.writeData (r : NSec) : Bytes :=
  be16 (nameLen r.nextName + nsecTypesBitmapLen r.types.bytes.1)
    ++ writeName r.nextName.bytes ++ writeNsecTypesBitmap r.types.bytes.1

/-- src/rr.rs:769-781 -/
def NSec3.writeData (r : NSec3) : Bytes :=
  be16 (4 + 2 + UInt16.ofNat r.salt.length + UInt16.ofNat r.nextNameHash.length
      + nsecTypesBitmapLen r.types.bytes.1)
    ++ [r.hashAlgo] ++ [r.flags] ++ be16 r.hashIterations
    ++ [UInt8.ofNat r.salt.length] ++ r.salt
    ++ [UInt8.ofNat r.nextNameHash.length] ++ r.nextNameHash
    ++ writeNsecTypesBitmap r.types.bytes.1

/-- src/rr.rs:806-809 -/
def A.writeData (r : A) : Bytes := be16 4 ++ r.address.1

/-- src/rr.rs:834-837 -/
def AAAA.writeData (r : AAAA) : Bytes := be16 16 ++ r.address.1

/-- src/rr.rs:864-867 -/
def NS.writeData (r : NS) : Bytes := be16 (nameLen r.nameServer) ++ writeName r.nameServer.bytes

/-- src/rr.rs:160-175 `RR::write_u16_len_prefixed_data`: the bytes appended. -/
def RR.writeData : RR → Bytes
  | .a r => r.writeData
  | .aaaa r => r.writeData
  | .ns r => r.writeData
  | .txt r => r.writeData
  | .cname r => r.writeData
  | .dname r => r.writeData
  | .tlsa r => r.writeData
  | .dnskey r => r.writeData
  | .ds r => r.writeData
  | .rrsig r => r.writeData
  | .nsec r => r.writeData
  | .nsec3 r => r.writeData

/-- src/ser.rs:185-191 `write_rr`: the bytes appended. -/
def writeRR (rr : RR) (ttl : UInt32) : Bytes :=
  writeName rr.name.bytes ++ be16 rr.ty ++ be16 1 ++ be32 ttl ++ rr.writeData

/-! ### Comparison -/

/-- `<Name as Ord>::cmp` (derived: string order). -/
def Name.cmp (a b : Name) : Ordering := cmpBytes a.bytes b.bytes

/-- `data[start..end]`, `none` if Rust would panic. -/
def slice? (d : Bytes) (s e : Nat) : Option Bytes :=
  if s ≤ e ∧ e ≤ d.length then some ((d.take e).drop s) else none

/-- The `for i in 1..(self.data.len() / 255) + 2` loop of src/rr.rs:264-272, `n` iterations left, starting at `i`.
`none` is a slicing panic. -/
def txtCmpLoop (a b : Bytes) : Nat → Nat → Option Ordering
  | 0, _ => some .eq
  | n + 1, i =>
    let start := (i - 1) * 255
    let selfLen := min (i * 255) a.length
    let oLen := min (i * 255) b.length
    match compare selfLen oLen with
    | .lt => some .lt
    | .gt => some .gt
    | .eq =>
      match slice? a start selfLen, slice? b start oLen with
      | some sa, some sb =>
        match cmpBytes sa sb with
        | .eq => txtCmpLoop a b n (i + 1)
        | o => some o
      | _, _ => none

/-- src/rr.rs:259-275 `PartialOrd for Txt` (`none` = panic). -/
def Txt.partialCmp? (a b : Txt) : Option Ordering :=
  match a.name.cmp b.name with
  | .eq => txtCmpLoop a.data b.data (a.data.length / 255 + 1) 1
  | o => some o

/-- `Txt::partial_cmp(..).unwrap()`; that it never panics is theorem `C11`. -/
def Txt.partialCmp (a b : Txt) : Ordering := (a.partialCmp? b).getD .eq

/-- The derived `Ord for Txt` (src/rr.rs:246): name, then data as a byte vector. -/
def Txt.cmp (a b : Txt) : Ordering := (a.name.cmp b.name).then (cmpBytes a.data b.data)

/-- derived order, src/rr.rs:315 -/
def TLSA.cmp (a b : TLSA) : Ordering :=
  (a.name.cmp b.name).then <| (compare a.certUsage b.certUsage).then <|
  (compare a.selector b.selector).then <| (compare a.dataTy b.dataTy).then <| cmpBytes a.data b.data

/-- derived order, src/rr.rs:366 -/
def CName.cmp (a b : CName) : Ordering := (a.name.cmp b.name).then (a.canonicalName.cmp b.canonicalName)

/-- derived order, src/rr.rs:395 -/
def DName.cmp (a b : DName) : Ordering := (a.name.cmp b.name).then (a.delegationName.cmp b.delegationName)

/-- derived order, src/rr.rs:427 -/
def DnsKey.cmp (a b : DnsKey) : Ordering :=
  (a.name.cmp b.name).then <| (compare a.flags b.flags).then <| (compare a.protocol b.protocol).then <|
  (compare a.alg b.alg).then <| cmpBytes a.pubkey b.pubkey

/-- derived order, src/rr.rs:490 -/
def DS.cmp (a b : DS) : Ordering :=
  (a.name.cmp b.name).then <| (compare a.keyTag b.keyTag).then <| (compare a.alg b.alg).then <|
  (compare a.digestType b.digestType).then <| cmpBytes a.digest b.digest

/-- derived order, src/rr.rs:544 -/
def RRSig.cmp (a b : RRSig) : Ordering :=
  (a.name.cmp b.name).then <| (compare a.ty b.ty).then <| (compare a.alg b.alg).then <|
  (compare a.labels b.labels).then <| (compare a.origTtl b.origTtl).then <|
  (compare a.expiration b.expiration).then <| (compare a.inception b.inception).then <|
  (compare a.keyTag b.keyTag).then <| (a.keyName.cmp b.keyName).then <| cmpBytes a.signature b.signature

/-- derived order of the mask array, src/rr.rs:628 -/
def NSecTypeMask.cmp (a b : NSecTypeMask) : Ordering := cmpBytes a.bytes.1 b.bytes.1

/-- derived order, src/rr.rs:677 -/
def NSec.cmp (a b : NSec) : Ordering :=
  (a.name.cmp b.name).then <| (a.nextName.cmp b.nextName).then <| a.types.cmp b.types

/-- derived order, src/rr.rs:719 -/
def NSec3.cmp (a b : NSec3) : Ordering :=
  (a.name.cmp b.name).then <| (compare a.hashAlgo b.hashAlgo).then <| (compare a.flags b.flags).then <|
  (compare a.hashIterations b.hashIterations).then <| (cmpBytes a.salt b.salt).then <|
  (cmpBytes a.nextNameHash b.nextNameHash).then <| a.types.cmp b.types

/-- derived order, src/rr.rs:784 -/
def A.cmp (a b : A) : Ordering := (a.name.cmp b.name).then (cmpBytes a.address.1 b.address.1)

/-- derived order, src/rr.rs:812 -/
def AAAA.cmp (a b : AAAA) : Ordering := (a.name.cmp b.name).then (cmpBytes a.address.1 b.address.1)

/-- derived order, src/rr.rs:840 -/
def NS.cmp (a b : NS) : Ordering := (a.name.cmp b.name).then (a.nameServer.cmp b.nameServer)

/-- The discriminant of `enum RR` (declaration order), compared first by the derived orders (src/rr.rs:78). -/
def RR.idx : RR → Nat
  | .a _ => 0
  | .aaaa _ => 1
  | .ns _ => 2
  | .txt _ => 3
  | .tlsa _ => 4
  | .cname _ => 5
  | .dname _ => 6
  | .dnskey _ => 7
  | .ds _ => 8
  | .rrsig _ => 9
  | .nsec _ => 10
  | .nsec3 _ => 11

/-- Derived `PartialOrd for RR` (src/rr.rs:78): this is what `records.sort_unstable()` uses (through `lt`).
It uses the hand-written `PartialOrd for Txt`. -/
def RR.partialCmp : RR → RR → Ordering
  | .a x, .a y => x.cmp y
  | .aaaa x, .aaaa y => x.cmp y
  | .ns x, .ns y => x.cmp y
  | .txt x, .txt y => x.partialCmp y
  | .tlsa x, .tlsa y => x.cmp y
  | .cname x, .cname y => x.cmp y
  | .dname x, .dname y => x.cmp y
  | .dnskey x, .dnskey y => x.cmp y
  | .ds x, .ds y => x.cmp y
  | .rrsig x, .rrsig y => x.cmp y
  | .nsec x, .nsec y => x.cmp y
  | .nsec3 x, .nsec3 y => x.cmp y
  | x, y => compare x.idx y.idx

/-- Derived `Ord for RR` (src/rr.rs:78): uses the derived `Ord for Txt`. -/
def RR.cmp : RR → RR → Ordering
  | .txt x, .txt y => x.cmp y
  | x, y => x.partialCmp y

/-! ### Key tag -/

/-- The loop of src/rr.rs:478-484 from index `idx` on; `u32` arithmetic. -/
def keyTagLoop : Nat → Bytes → UInt32 → UInt32
  | _, [], res => res
  | idx, b :: bs, res =>
    keyTagLoop (idx + 1) bs (if idx % 2 = 0 then res + (b.toUInt32 <<< 8) else res + b.toUInt32)

/-- src/rr.rs:474-487 `DnsKey::key_tag`. -/
def DnsKey.computeKeyTag (k : DnsKey) : UInt16 :=
  let res := k.flags.toUInt32
  let res := res + (k.protocol.toUInt32 <<< 8)
  let res := res + k.alg.toUInt32
  let res := keyTagLoop 0 k.pubkey res
  let res := res + ((res >>> 16) &&& 0xffff)
  (res &&& 0xffff).toUInt16

end Dnssec
