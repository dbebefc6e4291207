import Verif.Model.Base32
import Verif.Model.Query
import Verif.Model.Validation

/-!
# The code of fuzzing builds

What differs under `cfg(fuzzing)`: the assertions in src/base32.rs, the shortcut in `verify_rrsig`, `STACK_BUF_LIMIT` (the parameter `L`
of `QueryBuf`), and the functions the targets in `/repo/fuzz/src` call.
-/

namespace Dnssec

/-! ### Vectors with a capacity -/

/-- A `Vec<u8>` with its capacity. -/
structure CapVec where
  data : Bytes
  cap : Nat
deriving DecidableEq

namespace CapVec

/-- `Vec::with_capacity(cap)`. Simplified: the documentation says *at least* `cap`; the assertions rely on its being equal. -/
def withCapacity (cap : Nat) : CapVec := ⟨[], cap⟩

/-- `Vec::push`: a full vector is reallocated with a larger capacity, chosen by the library. -/
def push (grow : Nat → Nat) (v : CapVec) (b : UInt8) : CapVec :=
  ⟨v.data ++ [b], if v.data.length = v.cap then grow v.cap else v.cap⟩

/-- A sequence of `push`es. -/
def pushAll (grow : Nat → Nat) (v : CapVec) (l : Bytes) : CapVec := l.foldl (push grow) v

/-- `Vec::truncate` and `Vec::drain(n..)` keep the capacity. -/
def truncate (v : CapVec) (n : Nat) : CapVec := ⟨v.data.take n, v.cap⟩

end CapVec

namespace Base32

/-- src/base32.rs:58-70: the loop of `encode_data`. -/
def encodeLoopF (grow : Nat → Nat) (v : CapVec) (cs : List Bytes) : CapVec := cs.foldl (fun v c => v.pushAll grow (encodeChunk c)) v

/-- src/base32.rs:51-76 `encode_data`; `.panic` is a failing assertion (line 73). -/
def encodeDataF (grow : Nat → Nat) (data : Bytes) : Res Unit CapVec :=
  let cap := (data.length + 4) / 5 * 8
  let ret := encodeLoopF grow (.withCapacity cap) (chunks 5 data.length data)
  if ret.cap = cap then .ok ret else .panic

/-- src/base32.rs:25-38 `encode`, with the assertion in lines 34-35. -/
def encodeF (grow : Nat → Nat) (data : Bytes) : Res Unit Bytes :=
  match encodeDataF grow data with
  | .ok ret =>
    let ret := ret.truncate ((data.length * 8 + 4) / 5)
    if ret.cap = (data.length + 4) / 5 * 8 then .ok ret.data else .panic
  | .err e => .err e
  | .panic => .panic

/-- src/base32.rs:85-98: the loop of `decode_data`. -/
def decodeLoopF (grow : Nat → Nat) : List Bytes → CapVec → Option CapVec
  | [], v => some v
  | c :: cs, v =>
    match chunkValues c with
    | none => none
    | some vals => decodeLoopF grow cs (v.pushAll grow (decodeChunk vals))

/-- src/base32.rs:78-112 `decode_data`, with the assertion in lines 109-110. -/
def decodeDataF (grow : Nat → Nat) (data : Bytes) : Res Unit Bytes :=
  let cap := (data.length + 7) / 8 * 5
  match decodeLoopF grow (chunks 8 data.length data) (.withCapacity cap) with
  | none => .err ()
  | some ret =>
    let outputLength := data.length * 5 / 8
    if (ret.data.drop outputLength).any (fun c => c != 0) then .err ()
    else if ret.cap = cap then .ok (ret.truncate outputLength).data else .panic

/-- src/base32.rs:41-47 `decode` -/
def decodeF (grow : Nat → Nat) (data : Bytes) : Res Unit Bytes :=
  if data.length % 8 = 1 ∨ data.length % 8 = 3 ∨ data.length % 8 = 6 then .err ()
  else decodeDataF grow data

end Base32

/-! ### Signatures -/

/-- src/validation.rs:121-170: the check of a signature with a key, with the shortcut in lines 155-161. -/
def checkSigF (p : Platform) (sig : RRSig) (key : DnsKey) (msg : Bytes) : Res VErr Unit :=
  let verdict (b : Bool) : Res VErr Unit := if b then .ok () else .err .invalid
  let sigValidation : Option (Res VErr Unit) :=
    if sig.alg = 8 ∨ sig.alg = 10 then
      match bytesToRsaPk key.pubkey with
      | none => none
      | some (n, e) =>
        some (verdict (if sig.alg = 8 then p.rsaSha256 n e msg sig.signature else p.rsaSha512 n e msg sig.signature))
    else if sig.alg = 13 ∨ sig.alg = 14 then
      some (verdict (if sig.alg = 13 then p.ecdsaP256 (4 :: key.pubkey) msg sig.signature
        else p.ecdsaP384 (4 :: key.pubkey) msg sig.signature))
    else some (verdict (p.ed25519 key.pubkey msg sig.signature))
  if sig.alg = 8 ∨ sig.alg = 10 ∨ sig.alg = 13 ∨ sig.alg = 14 ∨ sig.alg = 15 then
    match sigValidation with
    | none => .err .invalid
    | some v => if sig.signature.head? = some 1 then .ok () else v
  else .err .unsupported

/-- src/validation.rs:77-173 with the shortcut. -/
def verifyKeysLoopF (p : Platform) (sig : RRSig) (records : List RR) : List DnsKey → Res VErr Unit
  | [] => .err .invalid
  | k :: ks =>
    if keyEligible sig k then
      match signedData sig records with
      | none => .err .invalid
      | some msg => checkSigF p sig k msg
    else verifyKeysLoopF p sig records ks

/-- src/validation.rs:71-174 `verify_rrsig` with the shortcut. -/
def verifyRrsigF (p : Platform) (sig : RRSig) (dnskeys : List DnsKey) (records : List RR) : Res VErr Unit :=
  if records.any (fun r => sig.ty != r.ty) then .err .invalid
  else verifyKeysLoopF p sig records dnskeys

/-! ### The targets -/

/-- `STACK_BUF_LIMIT` in tests and fuzzing builds (src/query.rs:25). -/
abbrev fuzzBufLimit : UInt16 := 32

/-- src/query.rs:118-121 `fuzz_response`; `.panic` is a panic, any other result is dropped. -/
def fuzzResponse (dbg : Bool) (response : Bytes) : Res Unit Unit :=
  match (handleResponse dbg response [] []).2 with
  | .panic => .panic
  | _ => .ok ()

/-- src/query.rs:184-191: the loop of `fuzz_proof_builder`. `none` means that it has not ended within `fuel` rounds. -/
def fuzzLoop (dbg : Bool) : Nat → ProofBuilder → Bytes → Option (Res Unit Unit)
  | fuel, b, stream =>
    if b.awaiting then
      match fuel with
      | 0 => none
      | fuel + 1 =>
        match readU16 stream with
        | .panic => some .panic
        | .err () => some (.ok ())
        | .ok (len, stream) =>
          let buf := QueryBuf.newZeroed fuzzBufLimit len
          if stream.length < len.toNat then some (.ok ())
          else
            match buf.overwrite (stream.take len.toNat) with
            | none => some .panic
            | some buf =>
              match b.processResponse dbg buf.deref with
              | (_, .panic) => some .panic
              | (b, _) => fuzzLoop dbg fuel b (stream.drop len.toNat)
    else some (.ok ())

/-- src/query.rs:182-193 `fuzz_proof_builder` -/
def fuzzProofBuilder (dbg : Bool) (fuel : Nat) (stream : Bytes) : Option (Res Unit Unit) :=
  fuzzLoop dbg fuel (ProofBuilder.new ⟨ascii "example.com."⟩ 16).1 stream

end Dnssec
