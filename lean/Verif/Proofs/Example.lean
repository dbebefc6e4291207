import Verif.Proofs.Sort
import Verif.Proofs.Misc

/-! # Concrete platforms for examples and counterexamples -/

namespace Dnssec

/-- A platform with the given SHA-256 and RSA/SHA-256; nothing else verifies. -/
def testPlatform (sha1 sha256 : Bytes → Bytes) (rsa : Bytes → Bytes → Bytes → Bytes → Bool) : Platform where
  sha1 := sha1
  sha256 := sha256
  rsaSha256 := rsa
  rsaSha512 := fun _ _ _ _ => false
  ecdsaP256 := fun _ _ _ => false
  ecdsaP384 := fun _ _ _ => false
  ed25519 := fun _ _ _ => false
  sortNeeds := sortBy (fun a b => nsecOrd a.name b.name)
  sortNeeds_perm := sortBy_perm _
  sortNeeds_sorted := sortBy_sorted (fun a b => nsecOrd_swap a.name b.name) (fun h1 h2 => nsecOrd_trans h1 h2)

/-- Digest of the second root anchor. -/
def hintDigest : Bytes :=
  [0xE0, 0x6D, 0x44, 0xB8, 0x0B, 0x8F, 0x1D, 0x39, 0xA9, 0x5C, 0x0B, 0x0D, 0x7C, 0x65, 0xD0, 0x84,
   0x58, 0xE8, 0x80, 0x40, 0x9B, 0xBC, 0x68, 0x34, 0x57, 0x10, 0x42, 0x37, 0xC7, 0xF8, 0xEC, 0x8D]

/-- A toy platform: the SHA-256 of keys owned by the root is the root anchor's digest and `[7]` otherwise; exactly the
signature `[1]` verifies; SHA-1 gives 20 bytes starting with the input's second byte. -/
def wPlatform : Platform :=
  testPlatform (fun b => (b.drop 1).take 1 ++ List.replicate 19 0) (fun b => if b.take 1 = [0] then hintDigest else [7])
    (fun _ _ _ sig => decide (sig = [1]))

/-- A key (all zones of the examples use the same key material; its key tag is that of the second root anchor). -/
def wKey (z : String) : RR := .dnskey ⟨⟨ascii z⟩, 257, 3, 8, [1, 3, 0x4A, 0x5A]⟩

/-- An RRSIG at `n` over type `ty` with `labels` labels by zone `z`, with the given signature. -/
def wSigWith (alg : UInt8) (signature : Bytes) (n : String) (ty : UInt16) (labels : UInt8) (z : String) : RR :=
  .rrsig ⟨⟨ascii n⟩, ty, alg, labels, 3600, 2000000000, 1000000000, 20326, ⟨ascii z⟩, signature⟩

/-- A good RRSIG. -/
def wSig (n : String) (ty : UInt16) (labels : UInt8) (z : String) : RR := wSigWith 8 [1] n ty labels z

/-- A DS record. -/
def wDs (z : String) : RR := .ds ⟨⟨ascii z⟩, 20326, 8, 2, [7]⟩

/-- An address record. -/
def wA (n : String) : RR := .a ⟨⟨ascii n⟩, ⟨[1, 2, 3, 4], rfl⟩⟩

/-- The key set of a zone with its signature. -/
def wZone (z : String) (labels : UInt8) : List RR := [wKey z, wSig z 48 labels z]

/-- A delegation from `parent` to `child`, with the child's keys. -/
def wDelegation (parent child : String) (labels : UInt8) : List RR :=
  [wDs child, wSig child 43 labels parent] ++ wZone child labels

/-- root, `c.`, and a signed address at `a.c.`. -/
def wStream : List RR := wZone "." 0 ++ wDelegation "." "c." 1 ++ [wA "a.c.", wSig "a.c." 1 2 "c."]

end Dnssec
