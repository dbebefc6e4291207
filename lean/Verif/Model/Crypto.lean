import Verif.Model.Validation

/-!
# `verify_rr_stream` with the cryptographic operations it performs

The functions of `Model/Validation.lean` once more, with a list of the calls into `ring` and `bitcoin_hashes` in the order in which they
are made. `Proofs/Crypto.lean` shows that the list does not change what the functions compute.
-/

namespace Dnssec

/-- A call of the signature library or of a hash function. -/
inductive CryptoOp
  /-- `verify` of the signature of `sig` over `msg` with the key `key` (src/validation.rs:121-154) -/
  | verify (sig : RRSig) (key : DnsKey) (msg : Bytes)
  /-- the digest of `key` that is compared with `ds` (src/validation.rs:203-213) -/
  | digest (key : DnsKey) (ds : DS)
  /-- one SHA-1 computation of an NSEC3 hash, over these bytes (src/validation.rs:477-486) -/
  | hash (input : Bytes)
deriving DecidableEq

/-- A result and the operations performed to get it. -/
structure Traced (ρ : Type) where
  res : ρ
  ops : List CryptoOp
deriving DecidableEq

/-- src/validation.rs:121-154 (`checkSig`): a key that cannot be split and an unknown algorithm need no operation. -/
def checkSigE (p : Platform) (sig : RRSig) (key : DnsKey) (msg : Bytes) : Traced (Res VErr Unit) :=
  let verdict (b : Bool) : Traced (Res VErr Unit) := ⟨if b then .ok () else .err .invalid, [.verify sig key msg]⟩
  if sig.alg = 8 ∨ sig.alg = 10 then
    match bytesToRsaPk key.pubkey with
    | none => ⟨.err .invalid, []⟩
    | some (n, e) =>
      verdict (if sig.alg = 8 then p.rsaSha256 n e msg sig.signature else p.rsaSha512 n e msg sig.signature)
  else if sig.alg = 13 ∨ sig.alg = 14 then
    verdict (if sig.alg = 13 then p.ecdsaP256 (4 :: key.pubkey) msg sig.signature
      else p.ecdsaP384 (4 :: key.pubkey) msg sig.signature)
  else if sig.alg = 15 then verdict (p.ed25519 key.pubkey msg sig.signature)
  else ⟨.err .unsupported, []⟩

/-- src/validation.rs:77-173 (`verifyKeysLoop`) -/
def verifyKeysLoopE (p : Platform) (sig : RRSig) (records : List RR) : List DnsKey → Traced (Res VErr Unit)
  | [] => ⟨.err .invalid, []⟩
  | k :: ks =>
    if keyEligible sig k then
      match signedData sig records with
      | none => ⟨.err .invalid, []⟩
      | some msg => checkSigE p sig k msg
    else verifyKeysLoopE p sig records ks

/-- src/validation.rs:71-174 (`verifyRrsig`) -/
def verifyRrsigE (p : Platform) (sig : RRSig) (dnskeys : List DnsKey) (records : List RR) : Traced (Res VErr Unit) :=
  if records.any (fun r => sig.ty != r.ty) then ⟨.err .invalid, []⟩
  else verifyKeysLoopE p sig records dnskeys

/-- src/validation.rs:199-218: the loop over the DS records for one key, up to the first match; `all` is the whole DS set
(line 198). -/
def dsLoopE (p : Platform) (all : List DS) (k : DnsKey) : List DS → Traced Bool
  | [] => ⟨false, []⟩
  | ds :: dses =>
    let compare (hash : Bytes) : Traced Bool :=
      if hash == ds.digest then ⟨true, [.digest k ds]⟩
      else ⟨(dsLoopE p all k dses).res, .digest k ds :: (dsLoopE p all k dses).ops⟩
    if ds.alg == k.alg && k.computeKeyTag == ds.keyTag then
      if ds.digestType = 1 ∧ trustSha1 all then compare (p.sha1 (dsHashInput k))
      else if ds.digestType = 2 then compare (p.sha256 (dsHashInput k))
      else dsLoopE p all k dses
    else dsLoopE p all k dses

/-- src/validation.rs:196-220 (`validatedKeys`) -/
def validatedKeysE (p : Platform) (dses : List DS) : List DnsKey → Traced (List DnsKey)
  | [] => ⟨[], []⟩
  | k :: ks =>
    let m := dsLoopE p dses k dses
    let rest := validatedKeysE p dses ks
    ⟨if m.res then k :: rest.res else rest.res, m.ops ++ rest.ops⟩

/-- src/validation.rs:222-243 (`dnskeySigLoop`) -/
def dnskeySigLoopE (p : Platform) (validated : List DnsKey) (records : List DnsKey) :
    List RRSig → Bool → Traced (Res VErr RRSig)
  | [], foundUnsupported => ⟨.err (if foundUnsupported then .unsupported else .invalid), []⟩
  | sig :: sigs, _ =>
    let r := verifyRrsigE p sig validated (records.map RR.dnskey)
    match r.res with
    | .ok () => ⟨.ok sig, r.ops⟩
    | .err .unsupported =>
      let rest := dnskeySigLoopE p validated records sigs true
      ⟨rest.res, r.ops ++ rest.ops⟩
    | .err .invalid => ⟨.err .invalid, r.ops⟩
    | .panic => ⟨.panic, r.ops⟩

/-- src/validation.rs:177-244 (`verifyDnskeys`) -/
def verifyDnskeysE (p : Platform) (sigs : List RRSig) (dses : List DS) (records : List DnsKey) : Traced (Res VErr RRSig) :=
  if dses.isEmpty then ⟨.err .invalid, []⟩
  else if !dses.any (fun ds => ds.digestType == 1 || ds.digestType == 2 || ds.digestType == 4) then ⟨.err .unsupported, []⟩
  else
    let v := validatedKeysE p dses records
    let r := dnskeySigLoopE p v.res records sigs false
    ⟨r.res, v.ops ++ r.ops⟩

/-- src/validation.rs:385-438 (`sigLoop`) -/
def sigLoopE (dbg : Bool) (p : Platform) (inp : List RR) (zone : Bytes) : List RRSig → VState → Traced (Res VErr VState)
  | [], st => ⟨.ok st, []⟩
  | sig :: sigs, st =>
    if !endsWith sig.name.bytes zone then ⟨.err .invalid, []⟩
    else
      let r := verifyRrsigE p sig (zoneKeys inp zone) (coveredRecords inp sig)
      match r.res with
      | .err .unsupported =>
        let rest := sigLoopE dbg p inp zone sigs st
        ⟨rest.res, r.ops ++ rest.ops⟩
      | .err .invalid => ⟨.err .invalid, r.ops⟩
      | .panic => ⟨.panic, r.ops⟩
      | .ok () =>
        match acceptSig dbg inp sig (st.note sig) with
        | .ok st =>
          let rest := sigLoopE dbg p inp zone sigs st
          ⟨rest.res, r.ops ++ rest.ops⟩
        | .err e => ⟨.err e, r.ops⟩
        | .panic => ⟨.panic, r.ops⟩

/-- src/validation.rs:368-439 (`doZone`) -/
def doZoneE (dbg : Bool) (p : Platform) (inp : List RR) (zone : Bytes) (dses : List DS) (st : VState) :
    Traced (Res VErr VState) :=
  let k := verifyDnskeysE p (dnskeyRrsigs inp zone) (if zone = [dot] then rootHints else dses) (zoneKeys inp zone)
  match k.res with
  | .ok sig =>
    let rest := sigLoopE dbg p inp zone (zoneRrsigs inp zone) (st.note sig)
    ⟨rest.res, k.ops ++ rest.ops⟩
  | .err e => ⟨.err e, k.ops⟩
  | .panic => ⟨.panic, k.ops⟩

/-- src/validation.rs:358-440 (`zoneLoop`): the operations of at most `fuel` iterations, also if it has not ended by then. -/
def zoneLoopE (dbg : Bool) (p : Platform) (inp : List RR) : Nat → Bytes → VState → Traced (Option (Res VErr VState))
  | fuel, zone, st =>
    if zone = [dot] ∨ st.pending ≠ [] then
      match fuel with
      | 0 => ⟨none, []⟩
      | fuel + 1 =>
        let (zone, dses, st) :=
          match st.pending with
          | (z, ds) :: rest => (z.bytes, ds, { st with pending := rest })
          | [] => (zone, [], st)
        let r := doZoneE dbg p inp zone dses st
        match r.res with
        | .ok st =>
          let rest := zoneLoopE dbg p inp fuel zone st
          ⟨rest.res, r.ops ++ rest.ops⟩
        | .err e => ⟨some (.err e), r.ops⟩
        | .panic => ⟨some .panic, r.ops⟩
    else ⟨some (.ok st), []⟩

/-- src/validation.rs:480-485 (`nsec3HashIter`) -/
def nsec3HashIterE (p : Platform) (salt : Bytes) : Nat → Bytes → Traced Bytes
  | 0, h => ⟨h, []⟩
  | n + 1, h =>
    let rest := nsec3HashIterE p salt n (p.sha1 (h ++ salt))
    ⟨rest.res, .hash (h ++ salt) :: rest.ops⟩

/-- src/validation.rs:477-486 (`nsec3Hash`) -/
def nsec3HashE (p : Platform) (name salt : Bytes) (iterations : UInt16) : Traced Bytes :=
  let rest := nsec3HashIterE p salt iterations.toNat (p.sha1 (writeName name ++ salt))
  ⟨rest.res, .hash (writeName name ++ salt) :: rest.ops⟩

/-- src/validation.rs:465-493 (`nsec3Params`) -/
def nsec3ParamsE (p : Platform) (name : Bytes) :
    List NSec3 → List (UInt16 × Bytes × Bytes) → Traced (List (UInt16 × Bytes × Bytes))
  | [], acc => ⟨acc, []⟩
  | n :: ns, acc =>
    if n.hashIterations > 2500 then nsec3ParamsE p name ns acc
    else if n.hashAlgo ≠ 1 then nsec3ParamsE p name ns acc
    else if acc.any (fun (it, salt, _) => it == n.hashIterations && salt == n.salt) then nsec3ParamsE p name ns acc
    else
      let h := nsec3HashE p name n.salt n.hashIterations
      let acc := acc ++ [(n.hashIterations, n.salt, h.res)]
      if acc.length ≥ 2 then ⟨acc, h.ops⟩
      else
        let rest := nsec3ParamsE p name ns acc
        ⟨rest.res, h.ops ++ rest.ops⟩

/-- src/validation.rs:446-525 (`proofLoop`) -/
def proofLoopE (p : Platform) (res : List RR) : Nat → List Need → Traced (Res VErr Unit)
  | 0, _ => ⟨.ok (), []⟩
  | _ + 1, [] => ⟨.ok (), []⟩
  | fuel + 1, need :: rest =>
    match (nsecSearch res need.zone).find? (nsecProves need) with
    | some n => proofLoopE p res fuel (rest.filter (nsecKeep need n))
    | none =>
      let search := nsec3Search res need.zone
      let params := nsec3ParamsE p need.name search []
      match search.find? (nsec3Proves need params.res) with
      | some n =>
        let r := proofLoopE p res fuel (rest.filter (nsec3Keep need params.res n))
        ⟨r.res, params.ops ++ r.ops⟩
      | none => ⟨.err .invalid, params.ops⟩

/-- src/validation.rs:441-532 (`finishVerify`) -/
def finishVerifyE (p : Platform) (st : VState) : Traced (Res VErr Verified) :=
  if st.res.isEmpty then ⟨.err .invalid, []⟩
  else if st.latestInception ≥ st.earliestExpiry then ⟨.err .invalid, []⟩
  else
    let needs := (p.sortNeeds st.needs).reverse
    let r := proofLoopE p st.res needs.length needs
    match r.res with
    | .ok () =>
      ⟨.ok
        { verifiedRrs := st.res.filter (fun rr => rr.ty != nsecType && rr.ty != nsec3Type)
          validFrom := st.latestInception
          expires := st.earliestExpiry
          maxCacheTtl := st.minTtl }, r.ops⟩
    | .err e => ⟨.err e, r.ops⟩
    | .panic => ⟨.panic, r.ops⟩

/-- src/validation.rs:350-533 (`verifyRRStream`), with the operations performed in at most `fuel` iterations of the zone loop. -/
def verifyRRStreamE (dbg : Bool) (p : Platform) (fuel : Nat) (inp : List RR) : Traced (Option (Res VErr Verified)) :=
  let z := zoneLoopE dbg p inp fuel [dot] VState.init
  match z.res with
  | none => ⟨none, z.ops⟩
  | some (.ok st) =>
    let r := finishVerifyE p st
    ⟨some r.res, z.ops ++ r.ops⟩
  | some (.err e) => ⟨some (.err e), z.ops⟩
  | some .panic => ⟨some .panic, z.ops⟩

end Dnssec
