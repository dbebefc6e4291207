import Verif.Model.Query

/-!
# The parser with a step counter

The functions of `Model/Ser.lean` and the parsing part of `handle_response` once more, counting the octets they touch: every octet of the
input that is read or copied is counted each time it is, the text of a name once more when it is checked (`Name::try_from`), the table of
an NSEC or NSEC3 record with its 8192 octets when it is cleared, and the octets appended to a proof. `Proofs/Ticks.lean` shows that the
counter does not change what the functions compute. Comparisons of integers, allocation and the final sort of signer names are not counted.
-/

namespace Dnssec

/-- A result and the number of octets touched. -/
structure Ticked (α : Type) where
  res : Res Unit α
  ticks : Nat

namespace Ticked

/-- `?`: the counts add up; after an error or a panic nothing else is done. -/
def bind {α β : Type} (m : Ticked α) (f : α → Ticked β) : Ticked β :=
  match m.res with
  | .ok a => ⟨(f a).res, m.ticks + (f a).ticks⟩
  | .err e => ⟨.err e, m.ticks⟩
  | .panic => ⟨.panic, m.ticks⟩

/-- `Result::map`. -/
def map {α β : Type} (f : α → β) (m : Ticked α) : Ticked β := ⟨m.res.map f, m.ticks⟩

instance : Monad Ticked where
  pure a := ⟨.ok a, 0⟩
  bind := bind

/-- Touching `n` octets. -/
def charge {α : Type} (n : Nat) (r : Res Unit α) : Ticked α := ⟨r, n⟩

end Ticked

open Ticked (charge)

/-- The `loop` of src/ser.rs:77-96 (`readLabelsLoop`): one for the length octet, two for a pointer, and the octets of a label. -/
def readLabelsLoopT (wire : Bytes) (jump : Option (Nat → Bytes → Ticked Bytes)) : Nat → Bytes → Bytes → Ticked (Bytes × Bytes)
  | 0, _, _ => charge 0 (.err ())
  | fuel + 1, inp, name =>
    match inp with
    | [] => charge 0 (.err ())
    | lenb :: inp =>
      let len := lenb.toNat
      if len = 0 then
        charge 1 (.ok (if name.isEmpty then [dot] else name, inp))
      else
        let label (_ : Unit) : Ticked (Bytes × Bytes) :=
          if inp.length ≤ len then charge 1 (.err ())
          else if utf8Valid (inp.take len) then
            let name := name ++ inp.take len ++ [dot]
            if name.length > 255 then charge (1 + len) (.err ())
            else do
              charge (1 + len) (.ok ())
              readLabelsLoopT wire jump fuel (inp.drop len) name
          else charge (1 + len) (.err ())
        match jump with
        | some rec =>
          if 0xc0 ≤ len then
            match inp with
            | [] => charge 1 (.err ())
            | lo :: inp =>
              let offs := ((len &&& 0x3f) <<< 8) ||| lo.toNat
              if offs ≥ wire.length then charge 2 (.err ())
              else do
                charge 2 (.ok ())
                (rec offs name).map (fun name => (name, inp))
          else label ()
        | none => label ()

/-- src/ser.rs:77-96 `do_read_wire_packet_labels` (`readLabels`). -/
def readLabelsT (wire : Bytes) : Nat → Bytes → Bytes → Ticked (Bytes × Bytes)
  | 0, inp, name => readLabelsLoopT wire none inp.length inp name
  | limit + 1, inp, name =>
    readLabelsLoopT wire
      (some fun offs name => (readLabelsT wire limit (wire.drop offs) name).map Prod.fst)
      inp.length inp name

/-- src/ser.rs:98-106 (`readName`); checking the text of the name touches it once more. -/
def readNameT (wire inp : Bytes) : Ticked (Name × Bytes) := do
  let (name, inp) ← readLabelsT wire 255 inp []
  charge name.length (match Name.tryFrom name with
    | some n => .ok (n, inp)
    | none => .err ())

/-- src/ser.rs:9-13 -/
def readU8T (inp : Bytes) : Ticked (UInt8 × Bytes) := charge 1 (readU8 inp)
/-- src/ser.rs:14-20 -/
def readU16T (inp : Bytes) : Ticked (UInt16 × Bytes) := charge 2 (readU16 inp)
/-- src/ser.rs:21-27 -/
def readU32T (inp : Bytes) : Ticked (UInt32 × Bytes) := charge 4 (readU32 inp)

/-- src/ser.rs:29-37 (`readU8LenPrefixed`). -/
def readU8LenPrefixedT (inp : Bytes) : Ticked (Bytes × Bytes) :=
  match inp with
  | [] => charge 0 (.err ())
  | len :: inp =>
    if inp.length < len.toNat then charge 1 (.err ())
    else charge (1 + len.toNat) (.ok (inp.take len.toNat, inp.drop len.toNat))

/-- src/ser.rs:65-73 (`readBitmapLoop`). -/
def readBitmapLoopT : Nat → Bytes → FixedBytes 8192 → Ticked (FixedBytes 8192)
  | 0, _, res => charge 0 (.ok res)
  | fuel + 1, inp, res =>
    match inp with
    | [] => charge 0 (.ok res)
    | [_] => charge 1 (.err ())
    | block :: len :: rest =>
      if rest.length < len.toNat then charge 2 (.err ())
      else
        let src := rest.take len.toNat
        if h : block.toNat * 32 + src.length ≤ 8192 then do
          charge (2 + len.toNat) (.ok ())
          readBitmapLoopT fuel (rest.drop len.toNat) (copyInto res (block.toNat * 32) src h)
        else charge 2 .panic

/-- src/ser.rs:63-75 (`readNsecTypesBitmap`), including the 8192 octets of the cleared table. -/
def readNsecTypesBitmapT (inp : Bytes) : Ticked NSecTypeMask := do
  charge 8192 (.ok ())
  (readBitmapLoopT inp.length inp NSecTypeMask.new.bytes).map NSecTypeMask.mk

/-- src/rr.rs:289-294 (`txtReadLoop`). -/
def txtReadLoopT : Nat → Bytes → Bytes → Ticked Bytes
  | 0, _, acc => charge 0 (.ok acc)
  | fuel + 1, data, acc =>
    match data with
    | [] => charge 0 (.ok acc)
    | len :: data =>
      if data.length < len.toNat then charge 1 (.err ())
      else do
        charge (1 + len.toNat) (.ok ())
        txtReadLoopT fuel (data.drop len.toNat) (acc ++ data.take len.toNat)

/-- src/rr.rs:859-863, 383-387, 414-418 (`NS.read`, `CName.read`, `DName.read`): a name that should take all of the data. -/
def readOneNameT {α : Type} (dbg : Bool) (wire : Bytes) (mk : Name → α) (data : Bytes) : Ticked α := do
  let (n, data) ← readNameT wire data
  charge 0 (debugAssert dbg data.isEmpty)
  pure (mk n)

/-- src/rr.rs:352-357 -/
def TLSA.readT (name : Name) (data : Bytes) : Ticked TLSA := do
  let (u, data) ← readU8T data
  let (s, data) ← readU8T data
  let (t, data) ← readU8T data
  charge data.length (.ok ⟨name, u, s, t, data⟩)

/-- src/rr.rs:457-462 -/
def DnsKey.readT (name : Name) (data : Bytes) : Ticked DnsKey := do
  let (flags, data) ← readU16T data
  let (protocol, data) ← readU8T data
  let (alg, data) ← readU8T data
  charge data.length (.ok ⟨name, flags, protocol, alg, data⟩)

/-- src/rr.rs:528-533 -/
def DS.readT (name : Name) (data : Bytes) : Ticked DS := do
  let (keyTag, data) ← readU16T data
  let (alg, data) ← readU8T data
  let (digestType, data) ← readU8T data
  charge data.length (.ok ⟨name, keyTag, alg, digestType, data⟩)

/-- src/rr.rs:603-612 -/
def RRSig.readT (wire : Bytes) (name : Name) (data : Bytes) : Ticked RRSig := do
  let (ty, data) ← readU16T data
  let (alg, data) ← readU8T data
  let (labels, data) ← readU8T data
  let (origTtl, data) ← readU32T data
  let (expiration, data) ← readU32T data
  let (inception, data) ← readU32T data
  let (keyTag, data) ← readU16T data
  let (keyName, data) ← readNameT wire data
  charge data.length (.ok ⟨name, ty, alg, labels, origTtl, expiration, inception, keyTag, keyName, data⟩)

/-- src/rr.rs:703-710 -/
def NSec.readT (wire : Bytes) (name : Name) (data : Bytes) : Ticked NSec := do
  let (n, data) ← readNameT wire data
  let types ← readNsecTypesBitmapT data
  pure ⟨name, n, types⟩

/-- src/rr.rs:759-768 -/
def NSec3.readT (name : Name) (data : Bytes) : Ticked NSec3 := do
  let (hashAlgo, data) ← readU8T data
  let (flags, data) ← readU8T data
  let (iterations, data) ← readU16T data
  let (salt, data) ← readU8LenPrefixedT data
  let (nextHash, data) ← readU8LenPrefixedT data
  let types ← readNsecTypesBitmapT data
  pure ⟨name, hashAlgo, flags, iterations, salt, nextHash, types⟩

/-- src/ser.rs:147-161 (`readRData`). -/
def readRDataT (dbg : Bool) (wire : Bytes) (ty : UInt16) (name : Name) (data : Bytes) : Ticked RR :=
  if ty = aType then charge data.length ((A.read name data).map .a)
  else if ty = aaaaType then charge data.length ((AAAA.read name data).map .aaaa)
  else if ty = nsType then readOneNameT dbg wire (fun n => .ns ⟨name, n⟩) data
  else if ty = txtType then (txtReadLoopT data.length data []).map fun d => .txt ⟨name, d⟩
  else if ty = cnameType then readOneNameT dbg wire (fun n => .cname ⟨name, n⟩) data
  else if ty = dnameType then readOneNameT dbg wire (fun n => .dname ⟨name, n⟩) data
  else if ty = tlsaType then (TLSA.readT name data).map .tlsa
  else if ty = dnskeyType then (DnsKey.readT name data).map .dnskey
  else if ty = dsType then (DS.readT name data).map .ds
  else if ty = rrsigType then (RRSig.readT wire name data).map .rrsig
  else if ty = nsecType then (NSec.readT wire name data).map .nsec
  else if ty = nsec3Type then (NSec3.readT name data).map .nsec3
  else charge 0 (.err ())

/-- src/ser.rs:136-163 (`parseWirePacketRR`). -/
def parseWirePacketRRT (dbg : Bool) (wire inp : Bytes) : Ticked ((RR × UInt32) × Bytes) := do
  let (name, inp) ← readNameT wire inp
  let (ty, inp) ← readU16T inp
  let (cls, inp) ← readU16T inp
  if cls ≠ 1 then charge 0 (.err ()) else
  let (ttl, inp) ← readU32T inp
  let (dataLen, inp) ← readU16T inp
  if inp.length < dataLen.toNat then charge 0 (.err ()) else
  let data := inp.take dataLen.toNat
  let inp := inp.drop dataLen.toNat
  let rr ← readRDataT dbg wire ty name data
  pure ((rr, ttl), inp)

/-- src/ser.rs:165-167 (`parseRR`). -/
def parseRRT (dbg : Bool) (inp : Bytes) : Ticked (RR × Bytes) :=
  (parseWirePacketRRT dbg [] inp).map (fun ((rr, _), inp) => (rr, inp))

/-- src/ser.rs:175-177 (`parseRRStreamLoop`). -/
def parseRRStreamLoopT (dbg : Bool) : Nat → Bytes → List RR → Ticked (List RR)
  | 0, _, res => charge 0 (.ok res)
  | fuel + 1, inp, res =>
    if inp.isEmpty then charge 0 (.ok res)
    else do
      let (rr, inp) ← parseRRT dbg inp
      parseRRStreamLoopT dbg fuel inp (res ++ [rr])

/-- src/ser.rs:173-179 (`parseRRStream`). -/
def parseRRStreamT (dbg : Bool) (inp : Bytes) : Ticked (List RR) :=
  parseRRStreamLoopT dbg inp.length inp []

/-- src/query.rs:152-157 (`answersLoop`); the octets appended to the proof are counted. -/
def answersLoopT (dbg : Bool) (resp : Bytes) : Nat → HState → (HState × Res Unit Unit) × Nat
  | 0, st => ((st, .ok ()), 0)
  | n + 1, st =>
    let p := parseWirePacketRRT dbg resp st.read
    match p.res with
    | .ok ((rr, ttl), read) =>
      let r := answersLoopT dbg resp n ({ st with read := read }.add rr ttl)
      (r.1, p.ticks + (writeRR rr ttl).length + r.2)
    | .err () => ((st, .err ()), p.ticks)
    | .panic => ((st, .panic), p.ticks)

/-- src/query.rs:159-175 (`authoritiesLoop`). -/
def authoritiesLoopT (dbg : Bool) (resp : Bytes) : Nat → HState → (HState × Res Unit Unit) × Nat
  | 0, st => ((st, .ok ()), 0)
  | n + 1, st =>
    let p := parseWirePacketRRT dbg resp st.read
    match p.res with
    | .ok ((rr, ttl), read) =>
      if keepAuthority rr then
        let r := authoritiesLoopT dbg resp n ({ st with read := read }.add rr ttl)
        (r.1, p.ticks + (writeRR rr ttl).length + r.2)
      else
        let r := authoritiesLoopT dbg resp n { st with read := read }
        (r.1, p.ticks + r.2)
    | .err () => ((st, .err ()), p.ticks)
    | .panic => ((st, .panic), p.ticks)

/-- src/query.rs:124-148 (`readHeader`). -/
def readHeaderT (resp : Bytes) : Ticked ((UInt16 × UInt16) × Bytes) := do
  let (id, read) ← readU16T resp
  if id ≠ txid then charge 0 (.err ()) else
  let (flags, read) ← readU16T read
  if flags &&& 0b1000000000000000 = 0 then charge 0 (.err ()) else
  if flags &&& 0b0111101000000111 ≠ 0 then charge 0 (.err ()) else
  if flags &&& 0b100000 = 0 then charge 0 (.err ()) else
  let (questions, read) ← readU16T read
  if questions ≠ 1 then charge 0 (.err ()) else
  let (answers, read) ← readU16T read
  if answers = 0 then charge 0 (.err ()) else
  let (authorities, read) ← readU16T read
  let (_additional, read) ← readU16T read
  let (_, read) ← readNameT resp read
  let (_, read) ← readU16T read
  let (_, read) ← readU16T read
  pure ((answers, authorities), read)

/-- src/query.rs:123-178 (`handleResponse`). -/
def handleResponseT (dbg : Bool) (resp proof : Bytes) (names : List Name) : ((Bytes × List Name) × Res Unit UInt32) × Nat :=
  let h := readHeaderT resp
  match h.res with
  | .err () => (((proof, names), .err ()), h.ticks)
  | .panic => (((proof, names), .panic), h.ticks)
  | .ok ((answers, authorities), read) =>
    let a := answersLoopT dbg resp answers.toNat ⟨read, proof, names, 0xffffffff⟩
    match a.1 with
    | (st, .err ()) => (((st.proof, st.names), .err ()), h.ticks + a.2)
    | (st, .panic) => (((st.proof, st.names), .panic), h.ticks + a.2)
    | (st, .ok ()) =>
      let b := authoritiesLoopT dbg resp authorities.toNat st
      match b.1 with
      | (st, .err ()) => (((st.proof, st.names), .err ()), h.ticks + a.2 + b.2)
      | (st, .panic) => (((st.proof, st.names), .panic), h.ticks + a.2 + b.2)
      | (st, .ok ()) => (((st.proof, st.names), .ok st.minTtl), h.ticks + a.2 + b.2)

end Dnssec
