import Verif.Model.Query
import Verif.Model.Validation

/-!
# The hash wrapper

src/crypto/hash.rs and its uses in src/validation.rs:199-217 and 465-486, with the calls of `update` one by one. In the rest of the
model (`dsMatches`, `nsec3Hash`) the hash is applied to the whole message at once; `C81` proves that the two agree.
-/

namespace Dnssec

/-- An incremental hash of `bitcoin_hashes`: `Hash::engine()`, `HashEngine::input`, `Hash::from_engine` followed by `as_ref`.
What the library does is not modelled; the theorems are about every such engine. -/
structure Engine where
  State : Type
  start : State
  input : State → Bytes → State
  digest : State → Bytes

/-- The three engines in use (src/crypto/hash.rs:4-8). -/
structure Engines where
  sha1 : Engine
  sha256 : Engine
  sha512 : Engine

/-- src/crypto/hash.rs:10-15 `Hasher` -/
inductive Hasher (e : Engines) where
  | sha1 (s : e.sha1.State)
  | sha256 (s : e.sha256.State)
  | sha512 (s : e.sha512.State)

/-- src/crypto/hash.rs:17-21 `HashResult` -/
inductive HashResult where
  | sha1 (h : Bytes)
  | sha256 (h : Bytes)
  | sha512 (h : Bytes)

/-- src/crypto/hash.rs:23-31 `as_ref` -/
def HashResult.asRef : HashResult → Bytes
  | .sha1 h => h
  | .sha256 h => h
  | .sha512 h => h

namespace Hasher
variable {e : Engines}

/-- src/crypto/hash.rs:34 -/
def newSha1 (e : Engines) : Hasher e := .sha1 e.sha1.start
/-- src/crypto/hash.rs:35 -/
def newSha256 (e : Engines) : Hasher e := .sha256 e.sha256.start
/-- src/crypto/hash.rs:37 -/
def newSha512 (e : Engines) : Hasher e := .sha512 e.sha512.start

/-- src/crypto/hash.rs:39-45 `update` -/
def update : Hasher e → Bytes → Hasher e
  | .sha1 s, buf => .sha1 (e.sha1.input s buf)
  | .sha256 s, buf => .sha256 (e.sha256.input s buf)
  | .sha512 s, buf => .sha512 (e.sha512.input s buf)

/-- src/crypto/hash.rs:47-53 `finish` -/
def finish : Hasher e → HashResult
  | .sha1 s => .sha1 (e.sha1.digest s)
  | .sha256 s => .sha256 (e.sha256.digest s)
  | .sha512 s => .sha512 (e.sha512.digest s)

/-- src/ser.rs:111-123 `write_name` to a `Hasher`: one `update` for each slice. -/
def writeName (h : Hasher e) (name : Bytes) : Hasher e := (writeNameSlices name).foldl update h

end Hasher

/-- src/validation.rs:202-207: the hasher for a digest type; `none` is `continue`. -/
def dsHasher (e : Engines) (trustSha1 : Bool) (digestType : UInt8) : Option (Hasher e) :=
  if digestType = 1 ∧ trustSha1 then some (Hasher.newSha1 e)
  else if digestType = 2 then some (Hasher.newSha256 e)
  else none

/-- src/validation.rs:202-213: the digest of a key for a digest type. -/
def dsDigestS (e : Engines) (trustSha1 : Bool) (digestType : UInt8) (k : DnsKey) : Option Bytes :=
  match dsHasher e trustSha1 digestType with
  | none => none
  | some ctx =>
    let ctx := ctx.writeName k.name.bytes
    let ctx := ctx.update (be16 k.flags)
    let ctx := ctx.update [k.protocol]
    let ctx := ctx.update [k.alg]
    let ctx := ctx.update k.pubkey
    some ctx.finish.asRef

/-- src/validation.rs:200-217: one DS record against one key, with the calls of the hasher. -/
def dsMatchesS (e : Engines) (dses : List DS) (k : DnsKey) (ds : DS) : Bool :=
  if ds.alg != k.alg then false
  else if k.computeKeyTag == ds.keyTag then
    match dsDigestS e (trustSha1 dses) ds.digestType k with
    | none => false
    | some hash => hash == ds.digest
  else false

/-- src/validation.rs:480-485: the loop over the iterations. -/
def nsec3LoopS (e : Engines) (salt : Bytes) : Nat → Hasher e → Hasher e
  | 0, hasher => hasher
  | n + 1, hasher =>
    let res := hasher.finish
    let hasher := Hasher.newSha1 e
    let hasher := hasher.update res.asRef
    let hasher := hasher.update salt
    nsec3LoopS e salt n hasher

/-- src/validation.rs:477-486: the hash of a name, with the calls of the hasher. -/
def nsec3HashS (e : Engines) (name salt : Bytes) (iterations : UInt16) : Bytes :=
  let hasher := Hasher.newSha1 e
  let hasher := hasher.writeName name
  let hasher := hasher.update salt
  (nsec3LoopS e salt iterations.toNat hasher).finish.asRef

end Dnssec
