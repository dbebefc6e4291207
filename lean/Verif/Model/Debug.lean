import Verif.Model.Validation

/-! # Model of debug builds: overflow checks and debug assertions in writing and verifying

The parser is modelled with its debug assertions in `Model/Ser.lean` (parameter `dbg`). This file repeats the functions behind `write_rr`
and `verify_rr_stream` with the checks that debug builds add; a failing check is a panic. Where a function has no such check the one of
the release build is used. (`usize` sums of lengths of existing buffers cannot overflow and are not checked here.) -/

namespace Dnssec

/-- `u16` addition with overflow check. -/
def addU16 (a b : UInt16) : Option UInt16 := if a.toNat + b.toNat < 65536 then some (a + b) else none

/-- `u32` addition with overflow check. -/
def addU32 (a b : UInt32) : Option UInt32 := if a.toNat + b.toNat < 4294967296 then some (a + b) else none

/-- The loop of src/ser.rs:53-59: the length must be 32 (line 54), there must be a non-zero byte (line 57), and the sums must fit. -/
def bitmapLenLoopD : List Bytes → UInt16 → Option UInt16
  | [], total => some total
  | flags :: rest, total =>
    if flags.length ≠ 32 then none
    else if flags ≠ List.replicate 32 0 then
      match rposNonzero flags with
      | none => none
      | some i =>
        match addU16 3 (UInt16.ofNat i) with
        | none => none
        | some n =>
          match addU16 total n with
          | none => none
          | some total => bitmapLenLoopD rest total
    else bitmapLenLoopD rest total

/-- src/ser.rs:51-61 `nsec_types_bitmap_len`. -/
def nsecTypesBitmapLenD (types : Bytes) : Option UInt16 := bitmapLenLoopD (chunks32 types.length types) 0

/-- One iteration of the loop in src/ser.rs:40-49: the assertions of lines 41 and 44, and `last_nonzero_idx as u8 + 1`. -/
def writeWindowD (idx : Nat) (flags : Bytes) : Option Bytes :=
  if flags.length ≠ 32 then none
  else if flags ≠ List.replicate 32 0 then
    match rposNonzero flags with
    | none => none
    | some last =>
      if UInt8.ofNat last = 255 then none
      else some (UInt8.ofNat idx :: (UInt8.ofNat last + 1) :: flags.take (last + 1))
  else some []

/-- The loop of src/ser.rs:40-49 from window `idx` on. -/
def writeWindowsD : Nat → List Bytes → Option Bytes
  | _, [] => some []
  | idx, flags :: rest =>
    match writeWindowD idx flags with
    | none => none
    | some w => (writeWindowsD (idx + 1) rest).map (w ++ ·)

/-- src/ser.rs:39-50 `write_nsec_types_bitmap`. -/
def writeNsecTypesBitmapD (types : Bytes) : Option Bytes := writeWindowsD 0 (chunks32 types.length types)

/-- src/rr.rs:613-625. -/
def RRSig.writeDataD (r : RRSig) : Option Bytes :=
  match addU16 (2 + 1 + 1 + 4*3 + 2) (nameLen r.keyName) with
  | none => none
  | some len =>
    match addU16 len (UInt16.ofNat r.signature.length) with
    | none => none
    | some len =>
      some (be16 len ++ be16 r.ty ++ [r.alg] ++ [r.labels] ++ be32 r.origTtl ++ be32 r.expiration ++ be32 r.inception
        ++ be16 r.keyTag ++ writeName r.keyName.bytes ++ r.signature)

/-- src/rr.rs:711-716. -/
def NSec.writeDataD (r : NSec) : Option Bytes :=
  match nsecTypesBitmapLenD r.types.bytes.1 with
  | none => none
  | some blen =>
    match addU16 (nameLen r.nextName) blen with
    | none => none
    | some len => (writeNsecTypesBitmapD r.types.bytes.1).map (be16 len ++ writeName r.nextName.bytes ++ ·)

/-- src/rr.rs:769-781. -/
def NSec3.writeDataD (r : NSec3) : Option Bytes :=
  match addU16 (4 + 2) (UInt16.ofNat r.salt.length) with
  | none => none
  | some len =>
    match addU16 len (UInt16.ofNat r.nextNameHash.length) with
    | none => none
    | some len =>
      match nsecTypesBitmapLenD r.types.bytes.1 with
      | none => none
      | some blen =>
        match addU16 len blen with
        | none => none
        | some len =>
          (writeNsecTypesBitmapD r.types.bytes.1).map
            (be16 len ++ [r.hashAlgo] ++ [r.flags] ++ be16 r.hashIterations ++ [UInt8.ofNat r.salt.length] ++ r.salt
              ++ [UInt8.ofNat r.nextNameHash.length] ++ r.nextNameHash ++ ·)

/-- src/rr.rs:160-175; the other types compute the length in `usize` or add nothing. -/
def RR.writeDataD : RR → Option Bytes
  | .rrsig r => r.writeDataD
  | .nsec r => r.writeDataD
  | .nsec3 r => r.writeDataD
  | r => some r.writeData

/-- src/ser.rs:185-191 `write_rr`; `none` is a panic. -/
def writeRRD (rr : RR) (ttl : UInt32) : Option Bytes :=
  rr.writeDataD.map (writeName rr.name.bytes ++ be16 rr.ty ++ be16 1 ++ be32 ttl ++ ·)

/-- The loop of src/rr.rs:478-484 with overflow checks. -/
def keyTagLoopD : Nat → Bytes → UInt32 → Option UInt32
  | _, [], res => some res
  | idx, b :: bs, res =>
    match addU32 res (if idx % 2 = 0 then b.toUInt32 <<< 8 else b.toUInt32) with
    | none => none
    | some res => keyTagLoopD (idx + 1) bs res

/-- src/rr.rs:473-487 `key_tag`. -/
def DnsKey.computeKeyTagD (k : DnsKey) : Option UInt16 :=
  match addU32 k.flags.toUInt32 (k.protocol.toUInt32 <<< 8) with
  | none => none
  | some res =>
    match addU32 res k.alg.toUInt32 with
    | none => none
    | some res =>
      match keyTagLoopD 0 k.pubkey res with
      | none => none
      | some res =>
        match addU32 res ((res >>> 16) &&& 0xffff) with
        | none => none
        | some res => some (res &&& 0xffff).toUInt16

/-- src/validation.rs:98-114 with the assertion of line 107. -/
def signedOwnerD (sig : RRSig) (record : RR) : Res VErr Bytes :=
  let recordLabels := record.name.labels.toNat
  let labels := sig.labels.toNat
  if record.ty ≠ nsecType ∧ recordLabels ≠ labels then
    if recordLabels < labels then .err .invalid
    else match record.name.trailingNLabels sig.labels with
      | some name => .ok ([1, 42] ++ writeName name)
      | none => .panic
  else .ok (writeName record.name.bytes)

/-- src/validation.rs:97-119. -/
def signedRecordsD (sig : RRSig) : List RR → Res VErr Bytes
  | [] => .ok []
  | r :: rs =>
    (signedOwnerD sig r).bind fun owner =>
      match r.writeDataD with
      | none => .panic
      | some d => (signedRecordsD sig rs).map (fun rest => owner ++ be16 r.ty ++ be16 1 ++ be32 sig.origTtl ++ d ++ rest)

/-- src/validation.rs:85-119. -/
def signedDataD (sig : RRSig) (records : List RR) : Res VErr Bytes :=
  (signedRecordsD sig (sortBy RR.partialCmp records)).map (sigPrefix sig ++ ·)

/-- src/validation.rs:77-173. -/
def verifyKeysLoopD (p : Platform) (sig : RRSig) (records : List RR) : List DnsKey → Res VErr Unit
  | [] => .err .invalid
  | k :: ks =>
    match k.computeKeyTagD with
    | none => .panic
    | some tag =>
      if tag == sig.keyTag && k.protocol == 3 && (k.flags &&& 0b100000000 != 0) && k.alg == sig.alg then
        (signedDataD sig records).bind (checkSig p sig k)
      else verifyKeysLoopD p sig records ks

/-- src/validation.rs:71-174 `verify_rrsig`. -/
def verifyRrsigD (p : Platform) (sig : RRSig) (dnskeys : List DnsKey) (records : List RR) : Res VErr Unit :=
  if records.any (fun r => sig.ty != r.ty) then .err .invalid
  else verifyKeysLoopD p sig records dnskeys

/-- src/validation.rs:199-218: the loop over the DS records for one key; whether the key is validated. -/
def dsLoopD (p : Platform) (dses : List DS) (k : DnsKey) : List DS → Option Bool
  | [] => some false
  | ds :: rest =>
    if ds.alg ≠ k.alg then dsLoopD p dses k rest
    else match k.computeKeyTagD with
      | none => none
      | some tag =>
        if tag = ds.keyTag ∧ (if ds.digestType = 1 ∧ trustSha1 dses then p.sha1 (dsHashInput k) == ds.digest
            else if ds.digestType = 2 then p.sha256 (dsHashInput k) == ds.digest else false) then some true
        else dsLoopD p dses k rest

/-- src/validation.rs:196-220. -/
def validatedKeysD (p : Platform) (dses : List DS) : List DnsKey → Option (List DnsKey)
  | [] => some []
  | k :: ks =>
    match dsLoopD p dses k dses with
    | none => none
    | some b => (validatedKeysD p dses ks).map (fun l => if b then k :: l else l)

/-- src/validation.rs:222-243. -/
def dnskeySigLoopD (p : Platform) (validated : List DnsKey) (records : List DnsKey) : List RRSig → Bool → Res VErr RRSig
  | [], foundUnsupported => .err (if foundUnsupported then .unsupported else .invalid)
  | sig :: sigs, _ =>
    match verifyRrsigD p sig validated (records.map RR.dnskey) with
    | .ok () => .ok sig
    | .err .unsupported => dnskeySigLoopD p validated records sigs true
    | .err .invalid => .err .invalid
    | .panic => .panic

/-- src/validation.rs:177-244 `verify_dnskeys`. -/
def verifyDnskeysD (p : Platform) (sigs : List RRSig) (dses : List DS) (records : List DnsKey) : Res VErr RRSig :=
  if dses.isEmpty then .err .invalid
  else if !dses.any (fun ds => ds.digestType == 1 || ds.digestType == 2 || ds.digestType == 4) then .err .unsupported
  else match validatedKeysD p dses records with
    | none => .panic
    | some validated => dnskeySigLoopD p validated records sigs false

/-- src/validation.rs:410-412 with the assertion that all are DS records. (The iterator is evaluated later; here it is evaluated at once.) -/
def dsSetD : List RR → Option (List DS)
  | [] => some []
  | .ds d :: rest => (dsSetD rest).map (d :: ·)
  | _ :: _ => none

/-- src/validation.rs:403-437, with the overflow check of `rrsig.labels + 1`. -/
def acceptSigD (inp : List RR) (sig : RRSig) (st : VState) : Res VErr VState :=
  if sig.ty = rrsigType ∨ sig.ty = dnskeyType then .err .invalid
  else if sig.ty = dsType then
    if st.pending.any (fun (z, _) => z.bytes == sig.name.bytes) then .ok st
    else match dsSetD (coveredRecords inp sig) with
      | none => .panic
      | some ds => .ok { st with pending := (sig.name, ds) :: st.pending }
  else
    let finish (st : VState) : Res VErr VState := .ok { st with res := pushAll st.res (coveredRecords inp sig) }
    if sig.labels ≠ sig.name.labels ∧ sig.ty ≠ nsecType then
      if sig.ty = nsec3Type then .err .invalid
      else
        (labelsPlusOne true sig.labels).bind fun l1 =>
          match sig.name.trailingNLabels l1 with
          | none => .err .invalid
          | some proofName => finish { st with needs := st.needs ++ [⟨proofName, sig.keyName, sig.ty⟩] }
    else finish st

/-- src/validation.rs:385-438. -/
def sigLoopD (p : Platform) (inp : List RR) (zone : Bytes) : List RRSig → VState → Res VErr VState
  | [], st => .ok st
  | sig :: sigs, st =>
    if !endsWith sig.name.bytes zone then .err .invalid
    else
      match verifyRrsigD p sig (zoneKeys inp zone) (coveredRecords inp sig) with
      | .err .unsupported => sigLoopD p inp zone sigs st
      | .err .invalid => .err .invalid
      | .panic => .panic
      | .ok () => (acceptSigD inp sig (st.note sig)).bind (sigLoopD p inp zone sigs)

/-- One iteration of `'next_zone` (src/validation.rs:368-439), with the assertion of line 378. -/
def doZoneD (p : Platform) (inp : List RR) (zone : Bytes) (nextDsSet : Option (List DS)) (st : VState) : Res VErr VState :=
  (if zone = [dot] then verifyDnskeysD p (dnskeyRrsigs inp zone) rootHints (zoneKeys inp zone)
   else match nextDsSet with
    | none => .panic
    | some dses => verifyDnskeysD p (dnskeyRrsigs inp zone) dses (zoneKeys inp zone)).bind
    fun sig => sigLoopD p inp zone (zoneRrsigs inp zone) (st.note sig)

/-- The `'next_zone` loop, src/validation.rs:358-440, with the assertion of line 364. -/
def zoneLoopD (p : Platform) (inp : List RR) : Nat → Bytes → VState → Option (Res VErr VState)
  | fuel, zone, st =>
    if zone = [dot] ∨ st.pending ≠ [] then
      match fuel with
      | 0 => none
      | fuel + 1 =>
        match st.pending with
        | (z, ds) :: rest =>
          match doZoneD p inp z.bytes (some ds) { st with pending := rest } with
          | .ok st => zoneLoopD p inp fuel z.bytes st
          | .err e => some (.err e)
          | .panic => some .panic
        | [] =>
          if zone ≠ [dot] then some .panic
          else match doZoneD p inp zone none st with
            | .ok st => zoneLoopD p inp fuel zone st
            | .err e => some (.err e)
            | .panic => some .panic
    else some (.ok st)

/-- src/validation.rs:495-513 with the assertion of line 509. -/
def nsec3UsableD (params : List (UInt16 × Bytes × Bytes)) (n : NSec3) : Res VErr (Option (Bytes × Bytes)) :=
  if n.flags ≠ 0 then .ok none
  else if n.hashAlgo ≠ 1 then .ok none
  else match params.find? (fun (it, salt, _) => it == n.hashIterations && salt == n.salt) with
    | none => .ok none
    | some (_, _, nameHash) =>
      match splitOnceDot n.name.bytes with
      | none => .panic
      | some (start32, _) =>
        match Base32.decode start32 with
        | none => .ok none
        | some start =>
          if start.length ≠ 20 ∨ n.nextNameHash.length ≠ 20 then .ok none
          else .ok (some (start, nameHash))

/-- The loop of src/validation.rs:495-523: the first record that settles the need. -/
def nsec3FindD (need : Need) (params : List (UInt16 × Bytes × Bytes)) : List NSec3 → Res VErr (Option NSec3)
  | [] => .ok none
  | n :: ns =>
    (nsec3UsableD params n).bind fun
      | none => nsec3FindD need params ns
      | some (start, h) =>
        if (start == h && !n.types.containsType need.ty) || (cmpBytes start h != .gt && cmpBytes n.nextNameHash h == .gt) then .ok (some n)
        else nsec3FindD need params ns

/-- src/validation.rs:446-525. -/
def proofLoopD (p : Platform) (res : List RR) : Nat → List Need → Res VErr Unit
  | 0, _ => .ok ()
  | _ + 1, [] => .ok ()
  | fuel + 1, need :: rest =>
    match (nsecSearch res need.zone).find? (nsecProves need) with
    | some n => proofLoopD p res fuel (rest.filter (nsecKeep need n))
    | none =>
      let search := nsec3Search res need.zone
      let params := nsec3Params p need.name search []
      (nsec3FindD need params search).bind fun
        | some n => proofLoopD p res fuel (rest.filter (nsec3Keep need params n))
        | none => .err .invalid

/-- src/validation.rs:441-532. -/
def finishVerifyD (p : Platform) (st : VState) : Res VErr Verified :=
  if st.res.isEmpty then .err .invalid
  else if st.latestInception ≥ st.earliestExpiry then .err .invalid
  else
    let needs := (p.sortNeeds st.needs).reverse
    (proofLoopD p st.res needs.length needs).bind fun _ =>
      .ok
        { verifiedRrs := st.res.filter (fun rr => rr.ty != nsecType && rr.ty != nsec3Type)
          validFrom := st.latestInception
          expires := st.earliestExpiry
          maxCacheTtl := st.minTtl }

/-- src/validation.rs:350-533 `verify_rr_stream` in a debug build. -/
def verifyRRStreamD (p : Platform) (fuel : Nat) (inp : List RR) : Option (Res VErr Verified) :=
  match zoneLoopD p inp fuel [dot] VState.init with
  | none => none
  | some (.ok st) => some (finishVerifyD p st)
  | some (.err e) => some (.err e)
  | some .panic => some .panic

end Dnssec
