import Verif.Proofs.Example

/-! # The cryptographic primitives, for running the model on real data

The theorems hold for every `Platform`. This file has a concrete one, written after FIPS 180-4 (SHA-1, SHA-256), RFC 8017 (RSA
signatures, PKCS #1 v1.5) and FIPS 186-4 (ECDSA with P-256), so that the model can be run on the records of the unit tests of `/repo`
(`Verif/Conformance/Tests.lean`). Nothing else depends on it. Numbers are `Nat`, on which the kernel computes quickly; `strict` makes it
evaluate an intermediate result before going on. -/

namespace Dnssec.Conformance

open Dnssec

/-- `k n`, evaluating `n` first. -/
def strict {α : Type} (n : Nat) (k : Nat → α) : α :=
  match n with
  | 0 => k 0
  | m + 1 => k (Nat.succ m)

def word : Nat := 4294967296
def add32 (a b : Nat) : Nat := Nat.mod (Nat.add a b) 4294967296
def not32 (a : Nat) : Nat := Nat.xor a 4294967295
def rotr (n x : Nat) : Nat := Nat.lor (Nat.shiftRight x n) (Nat.mod (Nat.shiftLeft x (Nat.sub 32 n)) 4294967296)
def rotl (n x : Nat) : Nat := rotr (Nat.sub 32 n) x

/-- Bytes as a number, most significant first. -/
def toNat (b : Bytes) : Nat := go b 0
where
  go : Bytes → Nat → Nat
    | [], acc => acc
    | x :: xs, acc => strict (Nat.add (Nat.mul acc 256) x.toNat) (go xs)

/-- The lowest byte of a number, in the form from which the kernel gets the number most easily. -/
def lowByte (n : Nat) : UInt8 := ⟨⟨⟨Nat.mod n 256, Nat.mod_lt n (by decide)⟩⟩⟩

/-- The lowest `len` bytes of a number, most significant first. -/
def ofNat (len n : Nat) : Bytes := go len n []
where
  go : Nat → Nat → Bytes → Bytes
    | 0, _, acc => acc
    | l + 1, n, acc => strict (Nat.div n 256) fun m => go l m (lowByte n :: acc)

/-- The padding of SHA-1 and SHA-256 after a message of `len` bytes. -/
def padding (len : Nat) : Bytes := 0x80 :: List.replicate ((119 - len % 64) % 64) 0 ++ ofNat 8 (8 * len)

/-- Split in blocks of 16 words. -/
def blocks (msg : Bytes) : List (List Nat) :=
  chunk (msg.length / 64 + 2) (words (msg ++ padding msg.length))
where
  words : Bytes → List Nat
    | a :: b :: c :: d :: rest =>
      strict (a.toNat * 16777216 + b.toNat * 65536 + c.toNat * 256 + d.toNat) fun w => w :: words rest
    | _ => []
  chunk : Nat → List Nat → List (List Nat)
    | 0, _ => []
    | n + 1, ws => if ws.length < 16 then [] else ws.take 16 :: chunk n (ws.drop 16)

/-! ### SHA-256 -/

def k256 : List Nat := [
  0x428a2f98, 0x71374491, 0xb5c0fbcf, 0xe9b5dba5, 0x3956c25b, 0x59f111f1, 0x923f82a4, 0xab1c5ed5,
  0xd807aa98, 0x12835b01, 0x243185be, 0x550c7dc3, 0x72be5d74, 0x80deb1fe, 0x9bdc06a7, 0xc19bf174,
  0xe49b69c1, 0xefbe4786, 0x0fc19dc6, 0x240ca1cc, 0x2de92c6f, 0x4a7484aa, 0x5cb0a9dc, 0x76f988da,
  0x983e5152, 0xa831c66d, 0xb00327c8, 0xbf597fc7, 0xc6e00bf3, 0xd5a79147, 0x06ca6351, 0x14292967,
  0x27b70a85, 0x2e1b2138, 0x4d2c6dfc, 0x53380d13, 0x650a7354, 0x766a0abb, 0x81c2c92e, 0x92722c85,
  0xa2bfe8a1, 0xa81a664b, 0xc24b8b70, 0xc76c51a3, 0xd192e819, 0xd6990624, 0xf40e3585, 0x106aa070,
  0x19a4c116, 0x1e376c08, 0x2748774c, 0x34b0bcb5, 0x391c0cb3, 0x4ed8aa4a, 0x5b9cca4f, 0x682e6ff3,
  0x748f82ee, 0x78a5636f, 0x84c87814, 0x8cc70208, 0x90befffa, 0xa4506ceb, 0xbef9a3f7, 0xc67178f2]

/-- Rounds with the constants `ks`, the next 16 message words, and the state. `x * 4294967297` is the word twice, so that a shift of it is
a rotation up to multiples of 2^32. -/
def rounds256 : List Nat → Nat → Nat → Nat → Nat → Nat → Nat → Nat → Nat → Nat → Nat → Nat → Nat → Nat → Nat → Nat → Nat →
    Nat → Nat → Nat → Nat → Nat → Nat → Nat → Nat → List Nat
  | [], _, _, _, _, _, _, _, _, _, _, _, _, _, _, _, _, a, b, c, d, e, f, g, h => [a, b, c, d, e, f, g, h]
  | k :: ks, w0, w1, w2, w3, w4, w5, w6, w7, w8, w9, w10, w11, w12, w13, w14, w15, a, b, c, d, e, f, g, h =>
    strict (Nat.mul e 4294967297) fun ee =>
    strict (Nat.mul a 4294967297) fun aa =>
    strict (Nat.mul w1 4294967297) fun v1 =>
    strict (Nat.mul w14 4294967297) fun v14 =>
    strict (Nat.add (Nat.add h (Nat.xor (Nat.xor (Nat.shiftRight ee 6) (Nat.shiftRight ee 11)) (Nat.shiftRight ee 25)))
        (Nat.add (Nat.xor (Nat.land e (Nat.xor f g)) g) (Nat.add k w0))) fun t1 =>
    strict (Nat.mod (Nat.add d t1) 4294967296) fun e' =>
    strict (Nat.mod (Nat.add (Nat.add t1 (Nat.xor (Nat.xor (Nat.shiftRight aa 2) (Nat.shiftRight aa 13)) (Nat.shiftRight aa 22)))
        (Nat.xor (Nat.land a (Nat.xor b c)) (Nat.land b c))) 4294967296) fun a' =>
    strict (Nat.mod (Nat.add (Nat.add w0 (Nat.xor (Nat.mod (Nat.xor (Nat.shiftRight v1 7) (Nat.shiftRight v1 18)) 4294967296)
        (Nat.shiftRight w1 3))) (Nat.add w9 (Nat.xor (Nat.mod (Nat.xor (Nat.shiftRight v14 17) (Nat.shiftRight v14 19)) 4294967296)
        (Nat.shiftRight w14 10)))) 4294967296) fun w16 =>
    rounds256 ks w1 w2 w3 w4 w5 w6 w7 w8 w9 w10 w11 w12 w13 w14 w15 w16 a' a b c e' e f g

/-- Add word by word. -/
def addWords : List Nat → List Nat → List Nat
  | a :: as, b :: bs => strict (add32 a b) fun s => s :: addWords as bs
  | _, _ => []

def compress256 : List (List Nat) → List Nat → List Nat
  | [], s => s
  | blk :: blks, s =>
    match s, blk with
    | [a, b, c, d, e, f, g, h], [w0, w1, w2, w3, w4, w5, w6, w7, w8, w9, w10, w11, w12, w13, w14, w15] =>
      compress256 blks (addWords s (rounds256 k256 w0 w1 w2 w3 w4 w5 w6 w7 w8 w9 w10 w11 w12 w13 w14 w15 a b c d e f g h))
    | _, _ => []

def wordsToBytes (l : List Nat) : Bytes := l.flatMap (ofNat 4)

/-- SHA-256 (FIPS 180-4). -/
def sha256 (msg : Bytes) : Bytes :=
  wordsToBytes (compress256 (blocks msg) [0x6a09e667, 0xbb67ae85, 0x3c6ef372, 0xa54ff53a, 0x510e527f, 0x9b05688c, 0x1f83d9ab, 0x5be0cd19])

/-! ### SHA-1 -/

/-- Rounds of SHA-1, counting down. -/
def rounds1 : Nat → List Nat → Nat → Nat → Nat → Nat → Nat → List Nat
  | t + 1, w0 :: ws, a, b, c, d, e =>
    let (f, k) :=
      if 60 ≤ t then (Nat.xor (Nat.land b c) (Nat.land (not32 b) d), 0x5a827999)
      else if 40 ≤ t then (Nat.xor (Nat.xor b c) d, 0x6ed9eba1)
      else if 20 ≤ t then (Nat.xor (Nat.xor (Nat.land b c) (Nat.land b d)) (Nat.land c d), 0x8f1bbcdc)
      else (Nat.xor (Nat.xor b c) d, 0xca62c1d6)
    strict (add32 (Nat.add (rotl 5 a) f) (Nat.add e (Nat.add k w0))) fun a' =>
    strict (rotl 30 b) fun b' =>
    strict (match ws with
      | _ :: w2 :: _ :: _ :: _ :: _ :: _ :: w8 :: _ :: _ :: _ :: _ :: w13 :: _ => rotl 1 (Nat.xor (Nat.xor w13 w8) (Nat.xor w2 w0))
      | _ => 0) fun w16 =>
    rounds1 t (ws ++ [w16]) a' a b' c d
  | _, _, a, b, c, d, e => [a, b, c, d, e]

def compress1 : List (List Nat) → List Nat → List Nat
  | [], s => s
  | blk :: blks, s =>
    match s with
    | [a, b, c, d, e] => compress1 blks (addWords s (rounds1 80 blk a b c d e))
    | _ => []

/-- SHA-1 (FIPS 180-4). -/
def sha1 (msg : Bytes) : Bytes :=
  wordsToBytes (compress1 (blocks msg) [0x67452301, 0xefcdab89, 0x98badcfe, 0x10325476, 0xc3d2e1f0])

/-! ### RSA -/

/-- `b ^ e mod m`, over the lowest `bits` bits of `e`, highest first. -/
def powMod (b e m : Nat) : Nat → Nat → Nat
  | 0, acc => acc
  | bits + 1, acc =>
    strict (Nat.mod (Nat.mul acc acc) m) fun sq =>
    if Nat.testBit e bits then strict (Nat.mod (Nat.mul sq b) m) (powMod b e m bits) else powMod b e m bits sq

/-- RSASSA-PKCS1-v1_5 verification with SHA-256 (RFC 8017, 8.2.2), for moduli of 1024 to 8192 bits and exponents of at most 33 bits. -/
def rsaSha256 (n e msg sig : Bytes) : Bool :=
  let N := toNat n
  let E := toNat e
  let S := toNat sig
  let k := n.length
  decide (1024 ≤ Nat.log2 N + 1 ∧ Nat.log2 N + 1 ≤ 8192 ∧ 3 ≤ E ∧ E < 8589934592 ∧ E % 2 = 1 ∧ n.head? ≠ some 0 ∧ sig.length = k ∧ S < N) &&
  (powMod S E N 33 1 == toNat ([0, 1] ++ List.replicate (k - 54) 0xff ++
    [0x00, 0x30, 0x31, 0x30, 0x0d, 0x06, 0x09, 0x60, 0x86, 0x48, 0x01, 0x65, 0x03, 0x04, 0x02, 0x01, 0x05, 0x00, 0x04, 0x20] ++ sha256 msg))

/-! ### ECDSA with P-256 -/

def p256 : Nat := 0xffffffff00000001000000000000000000000000ffffffffffffffffffffffff
def n256 : Nat := 0xffffffff00000000ffffffffffffffffbce6faada7179e84f3b9cac2fc632551
def b256 : Nat := 0x5ac635d8aa3a93e7b3ebbd55769886bc651d06b0cc53b0f63bce3c3e27d2604b
def gx256 : Nat := 0x6b17d1f2e12c4247f8bce6e563a440f277037d812deb33a0f4a13945d898c296
def gy256 : Nat := 0x4fe342e2fe1a7f9b8ee7eb4a7c0f9e162bce33576b315ececbb6406837bf51f5

def mulP (a b : Nat) : Nat := Nat.mod (Nat.mul a b) p256
/-- `a - b`, for reduced `b`. -/
def subP (a b : Nat) : Nat := Nat.mod (Nat.sub (Nat.add a p256) (Nat.mod b p256)) p256

/-- Jacobian coordinates; `z = 0` is the point at infinity. -/
structure Point where
  x : Nat
  y : Nat
  z : Nat

def Point.double (P : Point) (k : Point → Bool) : Bool :=
  strict (mulP P.y P.y) fun yy =>
  strict (mulP 4 (mulP P.x yy)) fun s =>
  strict (mulP P.z P.z) fun zz =>
  strict (mulP 3 (mulP (subP P.x zz) (Nat.add P.x zz))) fun m =>
  strict (subP (mulP m m) (Nat.add s s)) fun x =>
  strict (subP (mulP m (subP s x)) (mulP 8 (mulP yy yy))) fun y =>
  strict (mulP 2 (mulP P.y P.z)) fun z =>
  k ⟨x, y, z⟩

def Point.add (P Q : Point) (k : Point → Bool) : Bool :=
  if P.z = 0 then k Q else if Q.z = 0 then k P else
  strict (mulP P.z P.z) fun z1z1 =>
  strict (mulP Q.z Q.z) fun z2z2 =>
  strict (mulP P.x z2z2) fun u1 =>
  strict (mulP Q.x z1z1) fun u2 =>
  strict (mulP P.y (mulP Q.z z2z2)) fun s1 =>
  strict (mulP Q.y (mulP P.z z1z1)) fun s2 =>
  if u1 = u2 then (if s1 = s2 then P.double k else k ⟨1, 1, 0⟩) else
  strict (subP u2 u1) fun h =>
  strict (subP s2 s1) fun r =>
  strict (mulP h h) fun hh =>
  strict (mulP h hh) fun hhh =>
  strict (mulP u1 hh) fun v =>
  strict (subP (subP (mulP r r) hhh) (Nat.add v v)) fun x =>
  strict (subP (mulP r (subP v x)) (mulP s1 hhh)) fun y =>
  strict (mulP (mulP P.z Q.z) h) fun z =>
  k ⟨x, y, z⟩

/-- `u·G + v·Q` over the lowest `bits` bits, highest first, where `GQ = G + Q`. -/
def mulAdd (u v : Nat) (G Q GQ : Point) (k : Point → Bool) : Nat → Point → Bool
  | 0, acc => k acc
  | bits + 1, acc =>
    acc.double fun d =>
    match Nat.testBit u bits, Nat.testBit v bits with
    | false, false => mulAdd u v G Q GQ k bits d
    | true, false => d.add G (mulAdd u v G Q GQ k bits)
    | false, true => d.add Q (mulAdd u v G Q GQ k bits)
    | true, true => d.add GQ (mulAdd u v G Q GQ k bits)

/-- ECDSA verification with P-256 and SHA-256 (FIPS 186-4, 6.4), key as uncompressed point, signature as `r ‖ s`. -/
def ecdsaP256 (key msg sig : Bytes) : Bool :=
  decide (key.length = 65 ∧ sig.length = 64 ∧ key.head? = some 4) &&
  strict (toNat (key.tail.take 32)) fun x =>
  strict (toNat (key.drop 33)) fun y =>
  strict (toNat (sig.take 32)) fun r =>
  strict (toNat (sig.drop 32)) fun s =>
  decide (x < p256 ∧ y < p256 ∧ mulP y y = Nat.mod (mulP x (mulP x x) + mulP (p256 - 3) x + b256) p256 ∧
    1 ≤ r ∧ r < n256 ∧ 1 ≤ s ∧ s < n256) &&
  strict (powMod s (n256 - 2) n256 256 1) fun w =>
  strict (Nat.mod (Nat.mul (toNat (sha256 msg)) w) n256) fun u =>
  strict (Nat.mod (Nat.mul r w) n256) fun v =>
  Point.add ⟨gx256, gy256, 1⟩ ⟨x, y, 1⟩ fun GQ =>
  mulAdd u v ⟨gx256, gy256, 1⟩ ⟨x, y, 1⟩ GQ (fun R =>
    decide (R.z ≠ 0) && (R.x == mulP r (mulP R.z R.z) || (decide (r + n256 < p256) && R.x == mulP (r + n256) (mulP R.z R.z))))
    256 ⟨1, 1, 0⟩

/-- Known answers (FIPS 180-4 examples). -/
example : sha256 (ascii "abc") = ofNat 32 0xba7816bf8f01cfea414140de5dae2223b00361a396177a9cb410ff61f20015ad := by decide +kernel
example : sha1 (ascii "abc") = ofNat 20 0xa9993e364706816aba3e25717850c26c9cd0d89d := by decide +kernel

/-- A platform with these primitives. The tests of `/repo` need no others. -/
def realPlatform : Platform where
  sha1 := sha1
  sha256 := sha256
  rsaSha256 := rsaSha256
  rsaSha512 := fun _ _ _ _ => false
  ecdsaP256 := ecdsaP256
  ecdsaP384 := fun _ _ _ => false
  ed25519 := fun _ _ _ => false
  sortNeeds := sortBy (fun a b => nsecOrd a.name b.name)
  sortNeeds_perm := sortBy_perm _
  sortNeeds_sorted := sortBy_sorted (fun a b => nsecOrd_swap a.name b.name) (fun h1 h2 => nsecOrd_trans h1 h2)

end Dnssec.Conformance
