import Verif.Model.RR

/-!
# Model of the wire parser (src/ser.rs and the `read_from_data` functions of src/rr.rs)

A reader takes the remaining input and returns `ok (value, remaining input)`, `err ()` or `panic`.
`dbg` says whether debug assertions are compiled in (`debug_assert!`).
Loops carry a fuel argument that is always initialised to the number of bytes left; every iteration of the Rust loop
consumes at least one byte, so the fuel never runs out early (at fuel 0 no byte is left).
-/

namespace Dnssec

/-- `debug_assert!(c)`. -/
def debugAssert (dbg c : Bool) : Res Unit Unit := if dbg && !c then .panic else .ok ()

/-- src/ser.rs:9-13 `read_u8`. -/
def readU8 : Bytes → PRes UInt8
  | [] => .err ()
  | b :: rest => .ok (b, rest)

/-- src/ser.rs:14-20 `read_u16`. -/
def readU16 : Bytes → PRes UInt16
  | a :: b :: rest => .ok (ofBe16 a b, rest)
  | _ => .err ()

/-- src/ser.rs:21-27 `read_u32`. -/
def readU32 : Bytes → PRes UInt32
  | a :: b :: c :: d :: rest => .ok (ofBe32 a b c d, rest)
  | _ => .err ()

/-- src/ser.rs:29-37 `read_u8_len_prefixed_bytes`. -/
def readU8LenPrefixed (inp : Bytes) : PRes Bytes :=
  match inp with
  | [] => .err ()
  | len :: inp =>
    if inp.length < len.toNat then .err ()
    else .ok (inp.take len.toNat, inp.drop len.toNat)

/-- `res[off..off + src.len()].copy_from_slice(src)` when in range. -/
def copyInto (m : FixedBytes 8192) (off : Nat) (src : Bytes) (h : off + src.length ≤ 8192) : FixedBytes 8192 :=
  ⟨m.1.take off ++ src ++ m.1.drop (off + src.length), by
    have := m.2
    simp only [List.length_append, List.length_take, List.length_drop]; omega⟩

/-- The `while` loop of src/ser.rs:65-73. The range `block*32 .. block*32 + len` panics if it leaves the array. -/
def readBitmapLoop : Nat → Bytes → FixedBytes 8192 → Res Unit (FixedBytes 8192)
  | 0, _, res => .ok res
  | fuel + 1, inp, res =>
    match inp with
    | [] => .ok res
    | [_] => .err ()
    | block :: len :: rest =>
      if rest.length < len.toNat then .err ()
      else
        let src := rest.take len.toNat
        if h : block.toNat * 32 + src.length ≤ 8192 then
          readBitmapLoop fuel (rest.drop len.toNat) (copyInto res (block.toNat * 32) src h)
        else .panic

/-- src/ser.rs:63-75 `read_nsec_types_bitmap` (consumes all of its input). -/
def readNsecTypesBitmap (inp : Bytes) : Res Unit NSecTypeMask :=
  (readBitmapLoop inp.length inp NSecTypeMask.new.bytes).map NSecTypeMask.mk

/-- The `loop` of src/ser.rs:77-96 `do_read_wire_packet_labels`. `jump` is the recursive call of line 86 (`none` when
`recursion_limit == 0`, in which case a length ≥ 0xc0 is treated as a plain length). Returns the name read so far and the
remaining input. -/
def readLabelsLoop (wire : Bytes) (jump : Option (Nat → Bytes → Res Unit Bytes)) :
    Nat → Bytes → Bytes → Res Unit (Bytes × Bytes)
  | 0, _, _ => .err ()
  | fuel + 1, inp, name =>
    match inp with
    | [] => .err ()
    | lenb :: inp =>
      let len := lenb.toNat
      if len = 0 then
        .ok (if name.isEmpty then [dot] else name, inp)
      else
        let label (_ : Unit) : Res Unit (Bytes × Bytes) :=
          if inp.length ≤ len then .err ()
          else if utf8Valid (inp.take len) then
            let name := name ++ inp.take len ++ [dot]
            if name.length > 255 then .err ()
            else readLabelsLoop wire jump fuel (inp.drop len) name
          else .err ()
        match jump with
        | some rec =>
          if 0xc0 ≤ len then
            match inp with
            | [] => .err ()
            | lo :: inp =>
              let offs := ((len &&& 0x3f) <<< 8) ||| lo.toNat
              if offs ≥ wire.length then .err ()
              else (rec offs name).map (fun name => (name, inp))
          else label ()
        | none => label ()

/-- src/ser.rs:77-96 `do_read_wire_packet_labels` with `recursion_limit = limit`. -/
def readLabels (wire : Bytes) : Nat → Bytes → Bytes → Res Unit (Bytes × Bytes)
  | 0, inp, name => readLabelsLoop wire none inp.length inp name
  | limit + 1, inp, name =>
    readLabelsLoop wire
      (some fun offs name => (readLabels wire limit (wire.drop offs) name).map Prod.fst)
      inp.length inp name

/-- src/ser.rs:98-106 `read_wire_packet_labels`, `read_wire_packet_name`. -/
def readName (wire inp : Bytes) : PRes Name :=
  (readLabels wire 255 inp []).bind fun (name, inp) =>
    match Name.tryFrom name with
    | some n => .ok (n, inp)
    | none => .err ()

/-! ### `read_from_data` (src/rr.rs) -/

/-- src/rr.rs:800-805 -/
def A.read (name : Name) (data : Bytes) : Res Unit A :=
  if h : data.length = 4 then .ok ⟨name, ⟨data, h⟩⟩ else .err ()

/-- src/rr.rs:828-833 -/
def AAAA.read (name : Name) (data : Bytes) : Res Unit AAAA :=
  if h : data.length = 16 then .ok ⟨name, ⟨data, h⟩⟩ else .err ()

/-- src/rr.rs:859-863 -/
def NS.read (dbg : Bool) (wire : Bytes) (name : Name) (data : Bytes) : Res Unit NS := do
  let (n, data) ← readName wire data
  debugAssert dbg data.isEmpty
  pure ⟨name, n⟩

/-- The `while` loop of src/rr.rs:289-294. -/
def txtReadLoop : Nat → Bytes → Bytes → Res Unit Bytes
  | 0, _, acc => .ok acc
  | fuel + 1, data, acc =>
    match data with
    | [] => .ok acc
    | len :: data =>
      if data.length < len.toNat then .err ()
      else txtReadLoop fuel (data.drop len.toNat) (acc ++ data.take len.toNat)

/-- src/rr.rs:287-297 (the `debug_assert!` after the loop is the loop's exit condition). -/
def Txt.read (name : Name) (data : Bytes) : Res Unit Txt :=
  (txtReadLoop data.length data []).map (Txt.mk name)

/-- src/rr.rs:383-387 -/
def CName.read (dbg : Bool) (wire : Bytes) (name : Name) (data : Bytes) : Res Unit CName := do
  let (n, data) ← readName wire data
  debugAssert dbg data.isEmpty
  pure ⟨name, n⟩

/-- src/rr.rs:414-418 -/
def DName.read (dbg : Bool) (wire : Bytes) (name : Name) (data : Bytes) : Res Unit DName := do
  let (n, data) ← readName wire data
  debugAssert dbg data.isEmpty
  pure ⟨name, n⟩

/-- src/rr.rs:352-357 -/
def TLSA.read (name : Name) (data : Bytes) : Res Unit TLSA := do
  let (u, data) ← readU8 data
  let (s, data) ← readU8 data
  let (t, data) ← readU8 data
  pure ⟨name, u, s, t, data⟩

/-- src/rr.rs:457-462 -/
def DnsKey.read (name : Name) (data : Bytes) : Res Unit DnsKey := do
  let (flags, data) ← readU16 data
  let (protocol, data) ← readU8 data
  let (alg, data) ← readU8 data
  pure ⟨name, flags, protocol, alg, data⟩

/-- src/rr.rs:528-533 -/
def DS.read (name : Name) (data : Bytes) : Res Unit DS := do
  let (keyTag, data) ← readU16 data
  let (alg, data) ← readU8 data
  let (digestType, data) ← readU8 data
  pure ⟨name, keyTag, alg, digestType, data⟩

/-- src/rr.rs:603-612 -/
def RRSig.read (wire : Bytes) (name : Name) (data : Bytes) : Res Unit RRSig := do
  let (ty, data) ← readU16 data
  let (alg, data) ← readU8 data
  let (labels, data) ← readU8 data
  let (origTtl, data) ← readU32 data
  let (expiration, data) ← readU32 data
  let (inception, data) ← readU32 data
  let (keyTag, data) ← readU16 data
  let (keyName, data) ← readName wire data
  pure ⟨name, ty, alg, labels, origTtl, expiration, inception, keyTag, keyName, data⟩

/-- src/rr.rs:703-710 (the bitmap reader consumes everything, so the `debug_assert!` holds trivially). -/
def NSec.read (wire : Bytes) (name : Name) (data : Bytes) : Res Unit NSec := do
  let (n, data) ← readName wire data
  let types ← readNsecTypesBitmap data
  pure ⟨name, n, types⟩

/-- src/rr.rs:759-768 (as for NSEC). -/
def NSec3.read (name : Name) (data : Bytes) : Res Unit NSec3 := do
  let (hashAlgo, data) ← readU8 data
  let (flags, data) ← readU8 data
  let (iterations, data) ← readU16 data
  let (salt, data) ← readU8LenPrefixed data
  let (nextHash, data) ← readU8LenPrefixed data
  let types ← readNsecTypesBitmap data
  pure ⟨name, hashAlgo, flags, iterations, salt, nextHash, types⟩

/-- The `match ty` of src/ser.rs:147-161. -/
def readRData (dbg : Bool) (wire : Bytes) (ty : UInt16) (name : Name) (data : Bytes) : Res Unit RR :=
  if ty = aType then (A.read name data).map .a
  else if ty = aaaaType then (AAAA.read name data).map .aaaa
  else if ty = nsType then (NS.read dbg wire name data).map .ns
  else if ty = txtType then (Txt.read name data).map .txt
  else if ty = cnameType then (CName.read dbg wire name data).map .cname
  else if ty = dnameType then (DName.read dbg wire name data).map .dname
  else if ty = tlsaType then (TLSA.read name data).map .tlsa
  else if ty = dnskeyType then (DnsKey.read name data).map .dnskey
  else if ty = dsType then (DS.read name data).map .ds
  else if ty = rrsigType then (RRSig.read wire name data).map .rrsig
  else if ty = nsecType then (NSec.read wire name data).map .nsec
  else if ty = nsec3Type then (NSec3.read name data).map .nsec3
  else .err ()

/-- src/ser.rs:136-163 `parse_wire_packet_rr`. -/
def parseWirePacketRR (dbg : Bool) (wire inp : Bytes) : Res Unit ((RR × UInt32) × Bytes) := do
  let (name, inp) ← readName wire inp
  let (ty, inp) ← readU16 inp
  let (cls, inp) ← readU16 inp
  if cls ≠ 1 then .err () else
  let (ttl, inp) ← readU32 inp
  let (dataLen, inp) ← readU16 inp
  if inp.length < dataLen.toNat then .err () else
  let data := inp.take dataLen.toNat
  let inp := inp.drop dataLen.toNat
  let rr ← readRData dbg wire ty name data
  pure ((rr, ttl), inp)

/-- src/ser.rs:165-167 `parse_rr`. -/
def parseRR (dbg : Bool) (inp : Bytes) : Res Unit (RR × Bytes) :=
  (parseWirePacketRR dbg [] inp).map (fun ((rr, _), inp) => (rr, inp))

/-- The `while` loop of src/ser.rs:175-177. -/
def parseRRStreamLoop (dbg : Bool) : Nat → Bytes → List RR → Res Unit (List RR)
  | 0, _, res => .ok res
  | fuel + 1, inp, res =>
    if inp.isEmpty then .ok res
    else match parseRR dbg inp with
      | .ok (rr, inp) => parseRRStreamLoop dbg fuel inp (res ++ [rr])
      | .err () => .err ()
      | .panic => .panic

/-- src/ser.rs:173-179 `parse_rr_stream`. -/
def parseRRStream (dbg : Bool) (inp : Bytes) : Res Unit (List RR) :=
  parseRRStreamLoop dbg inp.length inp []

end Dnssec
