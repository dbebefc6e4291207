import Verif.Model.Ser
import Verif.Model.Sort
import Verif.Model.Base32

/-! # Model of src/validation.rs -/

namespace Dnssec

/-- src/validation.rs:38-48 `ValidationError` -/
inductive VErr where
  | unsupported
  | invalid
deriving DecidableEq, Repr

/-- A name (as a string), the zone whose key signed the wildcard, and the record type: an entry of
`rrs_needing_non_existence_proofs` (src/validation.rs:353, 431). -/
structure Need where
  name : Bytes
  zone : Name
  ty : UInt16
deriving DecidableEq

/-- src/validation.rs:300-319: one label against another, ASCII case-insensitively. -/
def nsecLabelCmp : Bytes → Bytes → Ordering
  | [], [] => .eq
  | _ :: _, [] => .gt
  | [], _ :: _ => .lt
  | a :: as, b :: bs =>
    let a := lowerByte a
    let b := lowerByte b
    if a ≠ b then compare a b else nsecLabelCmp as bs

/-- src/validation.rs:296-322: the outer loop over the labels from the right. -/
def nsecLabelsCmp : List Bytes → List Bytes → Ordering
  | [], [] => .eq
  | _ :: _, [] => .gt
  | [], _ :: _ => .lt
  | a :: as, b :: bs =>
    match nsecLabelCmp a b with
    | .eq => nsecLabelsCmp as bs
    | o => o

/-- src/validation.rs:293-323 `nsec_ord` -/
def nsecOrd (a b : Bytes) : Ordering := nsecLabelsCmp (rsplitDot a) (rsplitDot b)

/-- The cryptographic primitives (`ring`, `bitcoin_hashes`) as uninterpreted functions, and the unspecified sorting
algorithm behind `sort_unstable_by(nsec_ord_extra)` (src/validation.rs:445) as an unspecified sorting function.
All theorems hold for every value of this structure. -/
structure Platform where
  /-- src/crypto/hash.rs: the whole SHA-1 computation over the concatenation of the `update`s -/
  sha1 : Bytes → Bytes
  /-- SHA-256 -/
  sha256 : Bytes → Bytes
  /-- `RsaPublicKeyComponents { n, e }.verify(RSA_PKCS1_1024_8192_SHA256_FOR_LEGACY_USE_ONLY, msg, sig).is_ok()` -/
  rsaSha256 : (n e msg sig : Bytes) → Bool
  /-- the same with `RSA_PKCS1_1024_8192_SHA512_FOR_LEGACY_USE_ONLY` -/
  rsaSha512 : (n e msg sig : Bytes) → Bool
  /-- `UnparsedPublicKey::new(ECDSA_P256_SHA256_FIXED, key).verify(msg, sig).is_ok()` -/
  ecdsaP256 : (key msg sig : Bytes) → Bool
  /-- `ECDSA_P384_SHA384_FIXED` -/
  ecdsaP384 : (key msg sig : Bytes) → Bool
  /-- `ED25519` -/
  ed25519 : (key msg sig : Bytes) → Bool
  /-- `sort_unstable_by(nsec_ord_extra)` -/
  sortNeeds : List Need → List Need
  /-- it returns a permutation … -/
  sortNeeds_perm : ∀ l, (sortNeeds l).Perm l
  /-- … in which no element is greater than a later one. -/
  sortNeeds_sorted : ∀ l, (sortNeeds l).Pairwise (fun a b => nsecOrd a.name b.name ≠ .gt)

/-- src/validation.rs:20-26 `root_hints` (production; the `cfg(test)` anchor is not modelled). -/
def rootHints : List DS :=
  [{ name := rootName, keyTag := 19036, alg := 8, digestType := 2,
     digest := [0x49, 0xAA, 0xC1, 0x1D, 0x7B, 0x6F, 0x64, 0x46, 0x70, 0x2E, 0x54, 0xA1, 0x60, 0x73, 0x71, 0x60,
                0x7A, 0x1A, 0x41, 0x85, 0x52, 0x00, 0xFD, 0x2C, 0xE1, 0xCD, 0xDE, 0x32, 0xF2, 0x4E, 0x8F, 0xB5] },
   { name := rootName, keyTag := 20326, alg := 8, digestType := 2,
     digest := [0xE0, 0x6D, 0x44, 0xB8, 0x0B, 0x8F, 0x1D, 0x39, 0xA9, 0x5C, 0x0B, 0x0D, 0x7C, 0x65, 0xD0, 0x84,
                0x58, 0xE8, 0x80, 0x40, 0x9B, 0xBC, 0x68, 0x34, 0x57, 0x10, 0x42, 0x37, 0xC7, 0xF8, 0xEC, 0x8D] }]

/-- src/validation.rs:50-69 `bytes_to_rsa_pk`: `(n, e)`. -/
def bytesToRsaPk (pubkey : Bytes) : Option (Bytes × Bytes) :=
  match pubkey with
  | b0 :: b1 :: b2 :: _ :: _ =>
    let (pos, expLen) :=
      if b0 = 0 then (3, (b1.toNat <<< 8) ||| b2.toNat) else (1, b0.toNat)
    if pubkey.length ≤ pos + expLen then none
    else some (pubkey.drop (pos + expLen), (pubkey.drop pos).take expLen)
  | _ => none

/-- src/validation.rs:85-93: the RRSIG RDATA without the signature. -/
def sigPrefix (sig : RRSig) : Bytes :=
  be16 sig.ty ++ [sig.alg] ++ [sig.labels] ++ be32 sig.origTtl ++ be32 sig.expiration ++ be32 sig.inception
    ++ be16 sig.keyTag ++ writeName sig.keyName.bytes

/-- src/validation.rs:98-114: the owner name as it was signed; `none` = `Err(Invalid)`.
(The `debug_assert!` of line 107 cannot fail: `record_labels > labels`.) -/
def signedOwner (sig : RRSig) (record : RR) : Option Bytes :=
  let recordLabels := record.name.labels.toNat
  let labels := sig.labels.toNat
  if record.ty ≠ nsecType ∧ recordLabels ≠ labels then
    if recordLabels < labels then none
    else (record.name.trailingNLabels sig.labels).map (fun name => [1, 42] ++ writeName name)
  else some (writeName record.name.bytes)

/-- src/validation.rs:97-119: the records part of the signed data. -/
def signedRecords (sig : RRSig) : List RR → Option Bytes
  | [] => some []
  | r :: rs =>
    match signedOwner sig r with
    | none => none
    | some owner =>
      (signedRecords sig rs).map
        (fun rest => owner ++ be16 r.ty ++ be16 1 ++ be32 sig.origTtl ++ r.writeData ++ rest)

/-- src/validation.rs:85-119: the whole message, records in `sort_unstable` order. -/
def signedData (sig : RRSig) (records : List RR) : Option Bytes :=
  (signedRecords sig (sortBy RR.partialCmp records)).map (sigPrefix sig ++ ·)

/-- src/validation.rs:121-154: the signature check with one key. -/
def checkSig (p : Platform) (sig : RRSig) (key : DnsKey) (msg : Bytes) : Res VErr Unit :=
  let verdict (b : Bool) : Res VErr Unit := if b then .ok () else .err .invalid
  if sig.alg = 8 ∨ sig.alg = 10 then
    match bytesToRsaPk key.pubkey with
    | none => .err .invalid
    | some (n, e) =>
      verdict (if sig.alg = 8 then p.rsaSha256 n e msg sig.signature else p.rsaSha512 n e msg sig.signature)
  else if sig.alg = 13 ∨ sig.alg = 14 then
    verdict (if sig.alg = 13 then p.ecdsaP256 (4 :: key.pubkey) msg sig.signature
      else p.ecdsaP384 (4 :: key.pubkey) msg sig.signature)
  else if sig.alg = 15 then verdict (p.ed25519 key.pubkey msg sig.signature)
  else .err .unsupported

/-- src/validation.rs:78-83: whether this key is the one tried. -/
def keyEligible (sig : RRSig) (k : DnsKey) : Bool :=
  k.computeKeyTag == sig.keyTag && k.protocol == 3 && (k.flags &&& 0b100000000 != 0) && k.alg == sig.alg

/-- src/validation.rs:77-173: the loop over the keys. The first eligible key decides. -/
def verifyKeysLoop (p : Platform) (sig : RRSig) (records : List RR) : List DnsKey → Res VErr Unit
  | [] => .err .invalid
  | k :: ks =>
    if keyEligible sig k then
      match signedData sig records with
      | none => .err .invalid
      | some msg => checkSig p sig k msg
    else verifyKeysLoop p sig records ks

/-- src/validation.rs:71-174 `verify_rrsig` (the `cfg(fuzzing)` shortcut is in Model/Fuzzing). -/
def verifyRrsig (p : Platform) (sig : RRSig) (dnskeys : List DnsKey) (records : List RR) : Res VErr Unit :=
  if records.any (fun r => sig.ty != r.ty) then .err .invalid
  else verifyKeysLoop p sig records dnskeys

/-- src/validation.rs:208-212: the bytes hashed for a DS digest. -/
def dsHashInput (k : DnsKey) : Bytes :=
  writeName k.name.bytes ++ be16 k.flags ++ [k.protocol] ++ [k.alg] ++ k.pubkey

/-- src/validation.rs:198: "Only use SHA1 DS records if we don't have any SHA256/SHA384 DS RRs". -/
def trustSha1 (dses : List DS) : Bool := dses.all (fun ds => ds.digestType != 2 && ds.digestType != 4)

/-- src/validation.rs:200-217: one DS record against one key. -/
def dsMatches (p : Platform) (dses : List DS) (k : DnsKey) (ds : DS) : Bool :=
  ds.alg == k.alg && k.computeKeyTag == ds.keyTag &&
  (if ds.digestType = 1 ∧ trustSha1 dses then p.sha1 (dsHashInput k) == ds.digest
   else if ds.digestType = 2 then p.sha256 (dsHashInput k) == ds.digest
   else false)

/-- src/validation.rs:196-220: the keys some DS record vouches for. -/
def validatedKeys (p : Platform) (dses : List DS) (keys : List DnsKey) : List DnsKey :=
  keys.filter (fun k => dses.any (dsMatches p dses k))

/-- src/validation.rs:222-243: the loop over the signatures. -/
def dnskeySigLoop (p : Platform) (validated : List DnsKey) (records : List DnsKey) :
    List RRSig → Bool → Res VErr RRSig
  | [], foundUnsupported => .err (if foundUnsupported then .unsupported else .invalid)
  | sig :: sigs, _ =>
    match verifyRrsig p sig validated (records.map RR.dnskey) with
    | .ok () => .ok sig
    | .err .unsupported => dnskeySigLoop p validated records sigs true
    | .err .invalid => .err .invalid
    | .panic => .panic

/-- src/validation.rs:177-244 `verify_dnskeys`. -/
def verifyDnskeys (p : Platform) (sigs : List RRSig) (dses : List DS) (records : List DnsKey) : Res VErr RRSig :=
  if dses.isEmpty then .err .invalid
  else if !dses.any (fun ds => ds.digestType == 1 || ds.digestType == 2 || ds.digestType == 4) then .err .unsupported
  else dnskeySigLoop p (validatedKeys p dses records) records sigs false

/-- src/validation.rs:282-291 `resolve_time` (the `u64` result as a natural number). -/
def resolveTime (time : UInt32) : Nat :=
  if time.toNat < 60*60*24*365*27 then time.toNat + 4294967295 else time.toNat

/-! ### `verify_rr_stream` -/

/-- `filter_map` to the RRSIGs. -/
def rrsigs (inp : List RR) : List RRSig := inp.filterMap fun | .rrsig s => some s | _ => none

/-- `filter_map` to the DNSKEYs. -/
def dnskeys (inp : List RR) : List DnsKey := inp.filterMap fun | .dnskey k => some k | _ => none

/-- src/validation.rs:368-370 -/
def dnskeyRrsigs (inp : List RR) (zone : Bytes) : List RRSig :=
  (rrsigs inp).filter fun s => s.name.bytes == zone && s.ty == dnskeyType

/-- src/validation.rs:371-373 -/
def zoneKeys (inp : List RR) (zone : Bytes) : List DnsKey :=
  (dnskeys inp).filter fun k => k.name.bytes == zone

/-- src/validation.rs:385-387 -/
def zoneRrsigs (inp : List RR) (zone : Bytes) : List RRSig :=
  (rrsigs inp).filter fun s => s.keyName.bytes == zone && s.ty != dnskeyType

/-- src/validation.rs:390-391 -/
def coveredRecords (inp : List RR) (sig : RRSig) : List RR :=
  inp.filter fun rr => rr.name == sig.name && rr.ty == sig.ty

/-- src/validation.rs:410-412 -/
def dsSet (inp : List RR) (sig : RRSig) : List DS :=
  (coveredRecords inp sig).filterMap fun | .ds d => some d | _ => none

/-- The local variables of `verify_rr_stream` (src/validation.rs:351-357). `pending` has the top of the `Vec` (what `pop`
returns) at its head. -/
structure VState where
  res : List RR
  needs : List Need
  pending : List (Name × List DS)
  latestInception : Nat
  earliestExpiry : Nat
  minTtl : UInt32
deriving DecidableEq

/-- src/validation.rs:352-357 -/
def VState.init : VState :=
  { res := [], needs := [], pending := [], latestInception := 0, earliestExpiry := 18446744073709551615,
    minTtl := 0xffffffff }

/-- src/validation.rs:382-384 and 400-402 -/
def VState.note (st : VState) (sig : RRSig) : VState :=
  { st with
    latestInception := max st.latestInception (resolveTime sig.inception)
    earliestExpiry := min st.earliestExpiry (resolveTime sig.expiration)
    minTtl := min st.minTtl sig.origTtl }

/-- src/validation.rs:433-435 -/
def pushAll (res : List RR) : List RR → List RR
  | [] => res
  | r :: rs => pushAll (if r ∈ res then res else res ++ [r]) rs

/-- `rrsig.labels + 1` (src/validation.rs:429): panics on overflow with debug assertions, else wraps. -/
def labelsPlusOne (dbg : Bool) (l : UInt8) : Res VErr UInt8 := if dbg && l == 255 then .panic else .ok (l + 1)

/-- src/validation.rs:403-437: what a verified signature adds. -/
def acceptSig (dbg : Bool) (inp : List RR) (sig : RRSig) (st : VState) : Res VErr VState :=
  if sig.ty = rrsigType ∨ sig.ty = dnskeyType then .err .invalid
  else if sig.ty = dsType then
    if st.pending.any (fun (z, _) => z.bytes == sig.name.bytes) then .ok st
    else .ok { st with pending := (sig.name, dsSet inp sig) :: st.pending }
  else
    let finish (st : VState) : Res VErr VState := .ok { st with res := pushAll st.res (coveredRecords inp sig) }
    if sig.labels ≠ sig.name.labels ∧ sig.ty ≠ nsecType then
      if sig.ty = nsec3Type then .err .invalid
      else
        (labelsPlusOne dbg sig.labels).bind fun l1 =>
          match sig.name.trailingNLabels l1 with
          | none => .err .invalid
          | some proofName => finish { st with needs := st.needs ++ [⟨proofName, sig.keyName, sig.ty⟩] }
    else finish st

/-- src/validation.rs:385-438: the loop over the RRSIGs made by the zone. -/
def sigLoop (dbg : Bool) (p : Platform) (inp : List RR) (zone : Bytes) : List RRSig → VState → Res VErr VState
  | [], st => .ok st
  | sig :: sigs, st =>
    if !endsWith sig.name.bytes zone then .err .invalid
    else
      match verifyRrsig p sig (zoneKeys inp zone) (coveredRecords inp sig) with
      | .err .unsupported => sigLoop dbg p inp zone sigs st
      | .err .invalid => .err .invalid
      | .panic => .panic
      | .ok () => (acceptSig dbg inp sig (st.note sig)).bind (sigLoop dbg p inp zone sigs)

/-- One iteration of `'next_zone` (src/validation.rs:368-439) for `zone` with the DS set `dses`. -/
def doZone (dbg : Bool) (p : Platform) (inp : List RR) (zone : Bytes) (dses : List DS) (st : VState) :
    Res VErr VState :=
  (verifyDnskeys p (dnskeyRrsigs inp zone) (if zone = [dot] then rootHints else dses) (zoneKeys inp zone)).bind
    fun sig => sigLoop dbg p inp zone (zoneRrsigs inp zone) (st.note sig)

/-- The `'next_zone` loop, src/validation.rs:358-440, with at most `fuel` iterations (`none`: it has not ended by then). -/
def zoneLoop (dbg : Bool) (p : Platform) (inp : List RR) : Nat → Bytes → VState → Option (Res VErr VState)
  | fuel, zone, st =>
    if zone = [dot] ∨ st.pending ≠ [] then
      match fuel with
      | 0 => none
      | fuel + 1 =>
        let (zone, dses, st) :=
          match st.pending with
          | (z, ds) :: rest => (z.bytes, ds, { st with pending := rest })
          | [] => (zone, [], st)
        match doZone dbg p inp zone dses st with
        | .ok st => zoneLoop dbg p inp fuel zone st
        | .err e => some (.err e)
        | .panic => some .panic
    else some (.ok st)

/-! #### Denial of existence -/

/-- The NSEC records among the verified ones whose name ends with the zone (src/validation.rs:447-449). -/
def nsecSearch (res : List RR) (zone : Name) : List NSec :=
  res.filterMap fun | .nsec n => if endsWith n.name.bytes zone.bytes then some n else none | _ => none

/-- src/validation.rs:460-462 -/
def nsec3Search (res : List RR) (zone : Name) : List NSec3 :=
  res.filterMap fun | .nsec3 n => if endsWith n.name.bytes zone.bytes then some n else none | _ => none

/-- src/validation.rs:451-454: does this NSEC settle the need? -/
def nsecProves (need : Need) (n : NSec) : Bool :=
  (n.name.bytes == need.name && !n.types.containsType need.ty) ||
  (nsecOrd n.name.bytes need.name != .gt && nsecOrd n.nextName.bytes need.name == .gt)

/-- src/validation.rs:455-456: the `retain` predicate after `n` settled `need`. -/
def nsecKeep (need : Need) (n : NSec) (o : Need) : Bool :=
  o.name != need.name || (n.name.bytes == need.name && n.types.containsType o.ty)

/-- src/validation.rs:477-485: the iterated hash. -/
def nsec3HashIter (p : Platform) (salt : Bytes) : Nat → Bytes → Bytes
  | 0, h => h
  | n + 1, h => nsec3HashIter p salt n (p.sha1 (h ++ salt))

/-- src/validation.rs:477-486: the NSEC3 hash of a name. -/
def nsec3Hash (p : Platform) (name salt : Bytes) (iterations : UInt16) : Bytes :=
  nsec3HashIter p salt iterations.toNat (p.sha1 (writeName name ++ salt))

/-- src/validation.rs:465-493: at most two `(iterations, salt, hash)` entries. -/
def nsec3Params (p : Platform) (name : Bytes) :
    List NSec3 → List (UInt16 × Bytes × Bytes) → List (UInt16 × Bytes × Bytes)
  | [], acc => acc
  | n :: ns, acc =>
    if n.hashIterations > 2500 then nsec3Params p name ns acc
    else if n.hashAlgo ≠ 1 then nsec3Params p name ns acc
    else if acc.any (fun (it, salt, _) => it == n.hashIterations && salt == n.salt) then nsec3Params p name ns acc
    else
      let acc := acc ++ [(n.hashIterations, n.salt, nsec3Hash p name n.salt n.hashIterations)]
      if acc.length ≥ 2 then acc else nsec3Params p name ns acc

/-- src/validation.rs:495-513: the hash range `[start, next)` of an NSEC3 and the hash of the name sought, if this record
is usable. -/
def nsec3Usable (params : List (UInt16 × Bytes × Bytes)) (n : NSec3) : Option (Bytes × Bytes) :=
  if n.flags ≠ 0 then none
  else if n.hashAlgo ≠ 1 then none
  else match params.find? (fun (it, salt, _) => it == n.hashIterations && salt == n.salt) with
    | none => none
    | some (_, _, nameHash) =>
      -- `unwrap_or_else(|| { debug_assert!(false); ("", "") })`: a name always contains a dot
      let start32 := match splitOnceDot n.name.bytes with
        | some (l, _) => l
        | none => []
      match Base32.decode start32 with
      | none => none
      | some start =>
        if start.length ≠ 20 ∨ n.nextNameHash.length ≠ 20 then none
        else some (start, nameHash)

/-- src/validation.rs:515-518 -/
def nsec3Proves (need : Need) (params : List (UInt16 × Bytes × Bytes)) (n : NSec3) : Bool :=
  match nsec3Usable params n with
  | none => false
  | some (start, h) =>
    (start == h && !n.types.containsType need.ty) ||
    (cmpBytes start h != .gt && cmpBytes n.nextNameHash h == .gt)

/-- src/validation.rs:519-520: the `retain` predicate. -/
def nsec3Keep (need : Need) (params : List (UInt16 × Bytes × Bytes)) (n : NSec3) (o : Need) : Bool :=
  o.name != need.name ||
  ((match nsec3Usable params n with | some (start, h) => start == h | none => false) && n.types.containsType o.ty)

/-- src/validation.rs:446-525 `'proof_search_loop`; the head of the list is what `pop` returns. Every iteration removes an
entry, so the number of entries is enough fuel. -/
def proofLoop (p : Platform) (res : List RR) : Nat → List Need → Res VErr Unit
  | 0, _ => .ok ()
  | _ + 1, [] => .ok ()
  | fuel + 1, need :: rest =>
    match (nsecSearch res need.zone).find? (nsecProves need) with
    | some n => proofLoop p res fuel (rest.filter (nsecKeep need n))
    | none =>
      let search := nsec3Search res need.zone
      let params := nsec3Params p need.name search []
      match search.find? (nsec3Proves need params) with
      | some n => proofLoop p res fuel (rest.filter (nsec3Keep need params n))
      | none => .err .invalid

/-- src/validation.rs:251-280 `VerifiedRRStream` -/
structure Verified where
  verifiedRrs : List RR
  validFrom : Nat
  expires : Nat
  maxCacheTtl : UInt32
deriving DecidableEq

/-- src/validation.rs:441-532: everything after the zone loop. -/
def finishVerify (p : Platform) (st : VState) : Res VErr Verified :=
  if st.res.isEmpty then .err .invalid
  else if st.latestInception ≥ st.earliestExpiry then .err .invalid
  else
    let needs := (p.sortNeeds st.needs).reverse
    (proofLoop p st.res needs.length needs).bind fun _ =>
      .ok
        { verifiedRrs := st.res.filter (fun rr => rr.ty != nsecType && rr.ty != nsec3Type)
          validFrom := st.latestInception
          expires := st.earliestExpiry
          maxCacheTtl := st.minTtl }

/-- src/validation.rs:350-533 `verify_rr_stream`, running at most `fuel` iterations of the zone loop. `none` means it has
not returned by then. -/
def verifyRRStream (dbg : Bool) (p : Platform) (fuel : Nat) (inp : List RR) : Option (Res VErr Verified) :=
  match zoneLoop dbg p inp fuel [dot] VState.init with
  | none => none
  | some (.ok st) => some (finishVerify p st)
  | some (.err e) => some (.err e)
  | some .panic => some .panic

/-! ### `resolve_name` -/

/-- The first CNAME at `name` (src/validation.rs:549-552). -/
def firstCname (rrs : List RR) (name : Name) : Option CName :=
  (rrs.filterMap fun | .cname c => if c.name = name then some c else none | _ => none).head?

/-- The first DNAME whose name the string `name` ends with (src/validation.rs:557-560). -/
def firstDname (rrs : List RR) (name : Name) : Option DName :=
  (rrs.filterMap fun | .dname d => if endsWith name.bytes d.name.bytes then some d else none | _ => none).head?

/-- src/validation.rs:545-575 `VerifiedRRStream::resolve_name`, at most `fuel` redirections (`none`: not returned yet). The
`.expect` on `strip_suffix` (line 562) is `Res.panic`. -/
def resolveName (rrs : List RR) : Nat → Name → Option (Res Unit (List RR))
  | fuel, name =>
    match firstCname rrs name with
    | some c => match fuel with
      | 0 => none
      | fuel + 1 => resolveName rrs fuel c.canonicalName
    | none =>
      match firstDname rrs name with
      | some d =>
        match stripSuffix name.bytes d.name.bytes with
        | none => some .panic
        | some pre =>
          match Name.tryFrom (pre ++ d.delegationName.bytes) with
          | none => some (.ok [])
          | some n => match fuel with
            | 0 => none
            | fuel + 1 => resolveName rrs fuel n
      | none => some (.ok (rrs.filter fun rr => rr.name = name))

end Dnssec
