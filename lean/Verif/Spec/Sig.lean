import Verif.Spec.Misc
import Verif.Model.Validation

/-! # Specification of a valid RRSIG (RFC 4034 3.1.8.1, RFC 4035 5.3) -/

namespace Dnssec.Spec

open Dnssec

/-- A key that may be used for this signature: right key tag and algorithm, protocol 3, and a zone key (bit 8 of the
flags, value 256). -/
structure Eligible (sig : RRSig) (k : DnsKey) : Prop where
  tag : sig.keyTag.toNat = keyTag (rdata (.dnskey k))
  protocol : k.protocol = 3
  zoneKey : k.flags.toNat.testBit 8 = true
  alg : k.alg = sig.alg

/-- The owner name (wire form) that was signed, for a record with labels `ls`: the name itself if it has as many labels as
the RRSIG says (for NSEC records, always), or `*.` and the last labels if the RRSIG has fewer. No owner if it has more. -/
inductive SignedOwner (sig : RRSig) (ty : UInt16) (ls : List Bytes) : Bytes → Prop
  | exact : ls.length = sig.labels.toNat ∨ ty = 47 → SignedOwner sig ty ls (wire ls)
  | wildcard (pre suf : List Bytes) : ty ≠ 47 → ls = pre ++ suf → pre ≠ [] → suf.length = sig.labels.toNat →
      SignedOwner sig ty ls (wire (ascii "*" :: suf))

/-- RFC 4034 6.2/6.3: the records, each in canonical form with the original TTL, in this order. -/
inductive SignedRRs (sig : RRSig) : List RR → Bytes → Prop
  | nil : SignedRRs sig [] []
  | cons (r : RR) (rs : List RR) (ls : List Bytes) (owner rest : Bytes) : HasLabels r.name ls → SignedOwner sig r.ty ls owner →
      SignedRRs sig rs rest →
      SignedRRs sig (r :: rs)
        (owner ++ be16 r.ty ++ be16 1 ++ be32 sig.origTtl ++ be16 (UInt16.ofNat (rdata r).length) ++ rdata r ++ rest)

/-- RFC 4034 6.3: no record's RDATA is, as octets, greater than a later one's. -/
def Sorted (rs : List RR) : Prop := rs.Pairwise (fun a b => ¬ OctetLt (rdata b) (rdata a))

/-- RFC 4034 3.1.8.1: RRSIG RDATA without the signature, then the RRset in canonical form and order. -/
def SignedMessage (sig : RRSig) (records : List RR) (msg : Bytes) : Prop :=
  ∃ kls sorted body, HasLabels sig.keyName kls ∧ sorted.Perm records ∧ Sorted sorted ∧ SignedRRs sig sorted body ∧
    msg = be16 sig.ty ++ [sig.alg, sig.labels] ++ be32 sig.origTtl ++ be32 sig.expiration ++ be32 sig.inception ++
      be16 sig.keyTag ++ wire kls ++ body

/-- The cryptographic check for each supported algorithm (RFC 8624 numbers). -/
inductive CryptoOk (p : Platform) (alg : UInt8) (pubkey msg sig : Bytes) : Prop
  | rsaSha256 (n e : Bytes) : alg = 8 → 3 < pubkey.length → RsaKey pubkey e n → n ≠ [] → p.rsaSha256 n e msg sig = true →
      CryptoOk p alg pubkey msg sig
  | rsaSha512 (n e : Bytes) : alg = 10 → 3 < pubkey.length → RsaKey pubkey e n → n ≠ [] → p.rsaSha512 n e msg sig = true →
      CryptoOk p alg pubkey msg sig
  | ecdsaP256 : alg = 13 → p.ecdsaP256 (4 :: pubkey) msg sig = true → CryptoOk p alg pubkey msg sig
  | ecdsaP384 : alg = 14 → p.ecdsaP384 (4 :: pubkey) msg sig = true → CryptoOk p alg pubkey msg sig
  | ed25519 : alg = 15 → p.ed25519 pubkey msg sig = true → CryptoOk p alg pubkey msg sig

/-- The algorithms this crate implements. -/
def Supported (alg : UInt8) : Prop := alg = 8 ∨ alg = 10 ∨ alg = 13 ∨ alg = 14 ∨ alg = 15

/-- `k` is the first of the presented keys that may be used for this signature. -/
def FirstEligible (sig : RRSig) (keys : List DnsKey) (k : DnsKey) : Prop :=
  ∃ pre post, keys = pre ++ k :: post ∧ Eligible sig k ∧ ∀ k' ∈ pre, ¬ Eligible sig k'

/-- The RRSIG is a good signature over exactly these records by one of these keys. -/
def GoodSig (p : Platform) (sig : RRSig) (keys : List DnsKey) (records : List RR) : Prop :=
  (∀ r ∈ records, r.ty = sig.ty) ∧
  ∃ k msg, FirstEligible sig keys k ∧ SignedMessage sig records msg ∧ CryptoOk p sig.alg k.pubkey msg sig.signature

/-- Two records that this crate puts in the canonical order of RFC 4034 6.3 (C12): those of types A, TXT, AAAA, DS, DNSKEY and TLSA, and
NS records of which the texts of the name servers compare like the wire forms (`a.ns.x.` and `b.ns.x.`, but not `aa.` and `b.`). -/
def Orderable (r r' : RR) : Prop :=
  r.ty ∈ [1, 16, 28, 43, 48, 52] ∨
  ∃ n n', r = .ns n ∧ r' = .ns n' ∧ (OctetLt n.nameServer.bytes n'.nameServer.bytes ↔ OctetLt (rdata r) (rdata r'))

/-- RRsets for which this crate computes the canonical form of RFC 4034: owner names have no empty labels and are all the same, no TXT
record has empty data (C05), and the members are put in canonical order. -/
structure Proper (records : List RR) : Prop where
  labels : ∀ r ∈ records, ∃ ls, HasLabels r.name ls
  oneOwner : ∀ r ∈ records, ∀ r' ∈ records, r.name = r'.name
  txt : ∀ t, RR.txt t ∈ records → t.data ≠ []
  order : ∀ r ∈ records, ∀ r' ∈ records, r ≠ r' → Orderable r r'

end Dnssec.Spec
