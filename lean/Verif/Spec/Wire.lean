import Verif.Model.RR
import Verif.Spec.Name

/-! # Specification of wire formats -/

namespace Dnssec.Spec

open Dnssec

/-- The number that bytes stand for, the most significant first. -/
def bigEndian (bs : Bytes) : Nat := bs.foldl (fun v b => 256 * v + b.toNat) 0

/-- RFC 1035 4.1.4 name decompression, as a relation. `Decodes msg k inp text rest`: reading `inp` inside the message `msg`
while following at most `k` pointers gives the labels of `text` (each followed by a dot) and leaves `rest`.
A byte `len` ≥ 192 starts a pointer as long as pointers may still be followed (the code treats it as a plain label length
once the budget is used up). -/
inductive Decodes (msg : Bytes) : Nat → Bytes → Bytes → Bytes → Prop
  | stop (k : Nat) (rest : Bytes) : Decodes msg k (0 :: rest) [] rest
  | label (k : Nat) (len : UInt8) (l inp text rest : Bytes) :
      l ≠ [] → len.toNat = l.length → (len.toNat < 192 ∨ k = 0) → Decodes msg k inp text rest →
      Decodes msg k (len :: (l ++ inp)) (l ++ 46 :: text) rest
  | pointer (k : Nat) (hi lo : UInt8) (text rest rest' : Bytes) :
      192 ≤ hi.toNat → (hi.toNat - 192) * 256 + lo.toNat < msg.length →
      Decodes msg k (msg.drop ((hi.toNat - 192) * 256 + lo.toNat)) text rest' →
      Decodes msg (k + 1) (hi :: lo :: rest) text rest

/-- A name without labels is written as a single dot. -/
def orRoot (t : Bytes) : Bytes := if t = [] then [46] else t

/-- RFC 1035 3.3 character-strings. -/
def charStrings (ss : List Bytes) : Bytes := (ss.map (fun s => UInt8.ofNat s.length :: s)).flatten

/-- RFC 4034 4.1.2 windows: window number, length, bitmap. -/
def windows (ws : List (Nat × Bytes)) : Bytes :=
  (ws.map (fun w => UInt8.ofNat w.1 :: UInt8.ofNat w.2.length :: w.2)).flatten

/-- Canonical windows: numbers strictly increasing and below 256, each with 1 to 32 bytes of which the last is non-zero. -/
structure CanonicalWindows (ws : List (Nat × Bytes)) : Prop where
  increasing : ws.Pairwise (fun a b => a.1 < b.1)
  small : ∀ w ∈ ws, w.1 < 256
  length : ∀ w ∈ ws, 1 ≤ w.2.length ∧ w.2.length ≤ 32
  lastNonzero : ∀ w ∈ ws, ∃ init last, w.2 = init ++ [last] ∧ last ≠ 0

/-- RFC 4034 4.1.2: type `t` is present if bit `t % 256` of window `t / 256` is set, bit 0 being the most significant bit of
the first byte. -/
def BitmapHas (ws : List (Nat × Bytes)) (t : Nat) : Prop :=
  ∃ w ∈ ws, w.1 = t / 256 ∧ ∃ b, w.2[t % 256 / 8]? = some b ∧ b.toNat.testBit (7 - t % 8) = true

/-- Lexicographic octet order (RFC 4034 6.3: left-justified unsigned octet sequences, absence of an octet sorts first). -/
inductive OctetLt : Bytes → Bytes → Prop
  | nil (b : UInt8) (bs : Bytes) : OctetLt [] (b :: bs)
  | head (a b : UInt8) (as bs : Bytes) : a.toNat < b.toNat → OctetLt (a :: as) (b :: bs)
  | tail (a : UInt8) (as bs : Bytes) : OctetLt as bs → OctetLt (a :: as) (a :: bs)

/-- Data cut into pieces of 255 bytes, the last one shorter; one empty piece if there is no data. -/
def pieces255 (d : Bytes) : List Bytes :=
  (List.range (max 1 ((d.length + 254) / 255))).map (fun i => (d.drop (255 * i)).take 255)

/-- RFC 4034 4.1.2 windows of a set of types given as 65536 bits: the blocks of 256 bits that are not all zero, each without
trailing zero octets. -/
def maskWindows (bits : Bytes) : List (Nat × Bytes) :=
  (List.range 256).filterMap fun w =>
    let block := (((bits.drop (32 * w)).take 32).reverse.dropWhile (· == 0)).reverse
    if block = [] then none else some (w, block)

/-- The RDATA of a record in canonical form: A and NS, CNAME, TXT (RFC 1035 3.3, 3.4), AAAA (RFC 3596 2.2), DNAME (RFC 6672 2.1),
TLSA (RFC 6698 2.1), DNSKEY, RRSIG, NSEC, DS (RFC 4034 2.1, 3.1, 4.1, 5.1), NSEC3 (RFC 5155 3.2). TXT data is cut into
character-strings of 255 bytes. -/
def rdata : RR → Bytes
  | .a r => r.address.1
  | .aaaa r => r.address.1
  | .ns r => nameWire r.nameServer.bytes
  | .txt r => charStrings (pieces255 r.data)
  | .cname r => nameWire r.canonicalName.bytes
  | .dname r => nameWire r.delegationName.bytes
  | .tlsa r => [r.certUsage, r.selector, r.dataTy] ++ r.data
  | .dnskey r => be16 r.flags ++ [r.protocol, r.alg] ++ r.pubkey
  | .ds r => be16 r.keyTag ++ [r.alg, r.digestType] ++ r.digest
  | .rrsig r => be16 r.ty ++ [r.alg, r.labels] ++ be32 r.origTtl ++ be32 r.expiration ++ be32 r.inception ++ be16 r.keyTag ++
      nameWire r.keyName.bytes ++ r.signature
  | .nsec r => nameWire r.nextName.bytes ++ windows (maskWindows r.types.bytes.1)
  | .nsec3 r => [r.hashAlgo, r.flags] ++ be16 r.hashIterations ++ charStrings [r.salt] ++ charStrings [r.nextNameHash] ++
      windows (maskWindows r.types.bytes.1)

/-! ### Reading -/

/-- In the message `msg`, `inp` starts with the name `n`, followed by `rest`: labels and pointers decode to a text satisfying the
rules for names, and `n` is that text in lower case. -/
def ReadsName (msg inp : Bytes) (n : Name) (rest : Bytes) : Prop :=
  ∃ t, Decodes msg 255 inp t rest ∧ NameText (orRoot t) ∧ n.bytes = (orRoot t).map foldCase

/-- The octet at position `p` of the 8192 octets of a type bitmap given by windows: window `w` has the octets from position `32 w`
on; if several windows have the position, the last one counts. -/
def bitmapOctet (ws : List (Nat × Bytes)) (p : Nat) : UInt8 :=
  ws.foldl (fun b w => if 32 * w.1 ≤ p then (w.2[p - 32 * w.1]?).getD b else b) 0

/-- `data` is a sequence of windows with octets in the 8192 octets of a type bitmap, and `m` is that bitmap. -/
def ReadsBitmap (data : Bytes) (m : NSecTypeMask) : Prop :=
  ∃ ws, data = windows ws ∧ (∀ w ∈ ws, w.1 < 256 ∧ w.2.length < 256 ∧ 32 * w.1 + w.2.length ≤ 8192) ∧
    m.bytes.1 = (List.range 8192).map (bitmapOctet ws)

/-- The formats of RDATA by type number (for the RFCs see `rdata`). Bytes after the name of an NS, CNAME or DNAME record are ignored
(in debug builds they are not accepted). -/
inductive ReadsRData (dbg : Bool) (msg : Bytes) (owner : Name) : Nat → Bytes → RR → Prop
  | a (addr : FixedBytes 4) : ReadsRData dbg msg owner 1 addr.1 (.a ⟨owner, addr⟩)
  | ns (data rest : Bytes) (n : Name) : ReadsName msg data n rest → (dbg = true → rest = []) →
      ReadsRData dbg msg owner 2 data (.ns ⟨owner, n⟩)
  | cname (data rest : Bytes) (n : Name) : ReadsName msg data n rest → (dbg = true → rest = []) →
      ReadsRData dbg msg owner 5 data (.cname ⟨owner, n⟩)
  | txt (ss : List Bytes) : (∀ s ∈ ss, s.length ≤ 255) → ReadsRData dbg msg owner 16 (charStrings ss) (.txt ⟨owner, ss.flatten⟩)
  | aaaa (addr : FixedBytes 16) : ReadsRData dbg msg owner 28 addr.1 (.aaaa ⟨owner, addr⟩)
  | dname (data rest : Bytes) (n : Name) : ReadsName msg data n rest → (dbg = true → rest = []) →
      ReadsRData dbg msg owner 39 data (.dname ⟨owner, n⟩)
  | ds (keyTag : UInt16) (alg digestType : UInt8) (digest : Bytes) :
      ReadsRData dbg msg owner 43 (be16 keyTag ++ [alg, digestType] ++ digest) (.ds ⟨owner, keyTag, alg, digestType, digest⟩)
  | rrsig (covered : UInt16) (alg labels : UInt8) (origTtl expiration inception : UInt32) (keyTag : UInt16) (signer : Name)
      (tail signature : Bytes) : ReadsName msg tail signer signature →
      ReadsRData dbg msg owner 46
        (be16 covered ++ [alg, labels] ++ be32 origTtl ++ be32 expiration ++ be32 inception ++ be16 keyTag ++ tail)
        (.rrsig ⟨owner, covered, alg, labels, origTtl, expiration, inception, keyTag, signer, signature⟩)
  | nsec (data bitmap : Bytes) (next : Name) (types : NSecTypeMask) : ReadsName msg data next bitmap → ReadsBitmap bitmap types →
      ReadsRData dbg msg owner 47 data (.nsec ⟨owner, next, types⟩)
  | dnskey (flags : UInt16) (protocol alg : UInt8) (key : Bytes) :
      ReadsRData dbg msg owner 48 (be16 flags ++ [protocol, alg] ++ key) (.dnskey ⟨owner, flags, protocol, alg, key⟩)
  | nsec3 (algo flags : UInt8) (iterations : UInt16) (salt hash bitmap : Bytes) (types : NSecTypeMask) : salt.length ≤ 255 →
      hash.length ≤ 255 → ReadsBitmap bitmap types →
      ReadsRData dbg msg owner 50 ([algo, flags] ++ be16 iterations ++ charStrings [salt] ++ charStrings [hash] ++ bitmap)
        (.nsec3 ⟨owner, algo, flags, iterations, salt, hash, types⟩)
  | tlsa (usage selector matching : UInt8) (data : Bytes) :
      ReadsRData dbg msg owner 52 ([usage, selector, matching] ++ data) (.tlsa ⟨owner, usage, selector, matching, data⟩)

/-- RFC 1035 4.1.3: in the message `msg`, `inp` starts with the record `r.1` with TTL `r.2`, followed by `rest`: owner name, type,
class IN, TTL, length of the RDATA, RDATA. -/
def ReadsRecord (dbg : Bool) (msg inp : Bytes) (r : RR × UInt32) (rest : Bytes) : Prop :=
  ∃ owner ty data after, ReadsName msg inp owner after ∧
    after = be16 ty ++ be16 1 ++ be32 r.2 ++ be16 (UInt16.ofNat data.length) ++ data ++ rest ∧ data.length ≤ 65535 ∧
    ReadsRData dbg msg owner ty.toNat data r.1

/-- A type bitmap of windows within the 8192 octets for 65536 types, and then one with octets beyond. -/
inductive BitmapOverrun : Bytes → Prop
  | here (block len : UInt8) (rest : Bytes) : len.toNat ≤ rest.length → 8192 < block.toNat * 32 + len.toNat →
      BitmapOverrun (block :: len :: rest)
  | later (block len : UInt8) (w rest : Bytes) : w.length = len.toNat → block.toNat * 32 + len.toNat ≤ 8192 →
      BitmapOverrun rest → BitmapOverrun (block :: len :: (w ++ rest))

/-- The RDATA that make the parser panic: an NSEC or NSEC3 bitmap with octets beyond the 8192, or (in debug builds) an NS, CNAME or
DNAME with bytes after the name. -/
inductive RDataPanics (dbg : Bool) (msg : Bytes) : UInt16 → Bytes → Prop
  | nsec (data bm : Bytes) (n : Name) : ReadsName msg data n bm → BitmapOverrun bm → RDataPanics dbg msg 47 data
  | nsec3 (alg fl i1 i2 : UInt8) (salt hash bm : Bytes) : salt.length ≤ 255 → hash.length ≤ 255 → BitmapOverrun bm →
      RDataPanics dbg msg 50
        (alg :: fl :: i1 :: i2 :: UInt8.ofNat salt.length :: (salt ++ UInt8.ofNat hash.length :: (hash ++ bm)))
  | trailing (ty : UInt16) (data rest : Bytes) (n : Name) : dbg = true → ty = 2 ∨ ty = 5 ∨ ty = 39 →
      ReadsName msg data n rest → rest ≠ [] → RDataPanics dbg msg ty data

/-! ### Writing -/

/-- The names inside the RDATA of a record. -/
def rdataNames : RR → List Name
  | .ns r => [r.nameServer]
  | .cname r => [r.canonicalName]
  | .dname r => [r.delegationName]
  | .rrsig r => [r.keyName]
  | .nsec r => [r.nextName]
  | _ => []

/-- Records that have a faithful wire form: no name has an empty label, TXT data is not empty, the RDATA is at most 65535
bytes and NSEC3 salt and hash are at most 255 bytes. -/
structure Encodable (rr : RR) : Prop where
  owner : ∃ ls, HasLabels rr.name ls
  inner : ∀ n ∈ rdataNames rr, ∃ ls, HasLabels n ls
  txtNonempty : ∀ t, rr = .txt t → t.data ≠ []
  fits : (rdata rr).length ≤ 65535
  nsec3 : ∀ n, rr = .nsec3 n → n.salt.length ≤ 255 ∧ n.nextNameHash.length ≤ 255

end Dnssec.Spec
