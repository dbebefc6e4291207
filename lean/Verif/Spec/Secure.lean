import Verif.Spec.Chain
import Verif.Spec.Window

/-! # Specification for C117: which record sets of a proof are secure

RFC 4035 section 5 in one definition, without reference to how `verify_rr_stream` works: no order of the records, no "first" signature or
key, no zones still to be looked at. -/

set_option autoImplicit false

namespace Dnssec.Spec

open Dnssec

/-- RFC 4035 5.3.1 to 5.3.3: at the time `T`, the signature is a valid one by the key `k` over exactly these records. -/
structure Covers (p : Platform) (T : Nat) (sig : RRSig) (k : DnsKey) (records : List RR) : Prop where
  types : ∀ r ∈ records, r.ty = sig.ty
  key : Eligible sig k
  time : ValidAt sig T
  crypto : ∃ msg, SignedMessage sig records msg ∧ CryptoOk p sig.alg k.pubkey msg sig.signature

/-- The name is the zone's or below it, label by label. -/
def NameWithin (n z : Name) : Prop := ∃ nl zl, HasLabels n nl ∧ HasLabels z zl ∧ AtOrBelow nl zl

/-- The signature was made for its owner name, not for a wildcard. (NSEC records are taken to be at their own names.) -/
def AtOwnName (sig : RRSig) : Prop := ∃ ls, HasLabels sig.name ls ∧ (ls.length = sig.labels.toNat ∨ sig.ty = 47)

/-- The name lies strictly between the owner of the NSEC record and the next name (RFC 4034 6.1, RFC 4035 5.4). -/
def StrictlyBetween (n : NSec) (name : Bytes) : Prop := TextLt n.name.bytes name ∧ TextLt name n.nextName.bytes

/-- The hash of the name lies strictly between the hashes of the NSEC3 record, which is one of SHA-1, without opt-out, with at most 2500
iterations (RFC 5155 8.3, 8.8). -/
def HashStrictlyBetween (p : Platform) (n : NSec3) (name : Bytes) : Prop :=
  n.hashAlgo = 1 ∧ n.flags = 0 ∧ n.hashIterations.toNat ≤ 2500 ∧
  ∃ label rest start, n.name.bytes = label ++ 46 :: rest ∧ 46 ∉ label ∧ label.map toUpper = base32hex start ∧
    OctetLt start (iteratedHash p.sha1 n.salt (nameWire name) n.hashIterations.toNat) ∧
    OctetLt (iteratedHash p.sha1 n.salt (nameWire name) n.hashIterations.toNat) n.nextNameHash

/-- `Secure p inp T z n ty`: at the time `T`, the records in `inp` with the name `n` and the type `ty` are secure, as records of the zone
`z`: its keys are vouched for by the root's trust anchors through a chain of DS and DNSKEY record sets, and sign the set.

* `rootKeys`: the DNSKEY records of the root, signed in its own name by one of them which an IANA trust anchor vouches for.
* `zoneKeys`: the DNSKEY records of another zone, signed in its own name by one of them for which its DS records vouch, which
  are secure records of another zone.
* `signed`: any other records, signed by a secure key of a zone they are in, in the name of the zone.
* `wildcardNsec`, `wildcardNsec3`: such records made from a wildcard, if a secure NSEC or NSEC3 record of the same zone shows that the next
  closer name does not exist (RFC 4035 5.3.4, RFC 5155 8.8). -/
inductive Secure (p : Platform) (inp : List RR) (T : Nat) : Name → Name → UInt16 → Prop
  | rootKeys (sig : RRSig) (k : DnsKey) : RR.rrsig sig ∈ inp → sig.name = rootName → sig.ty = 48 → sig.keyName = rootName →
      AtOwnName sig → RR.dnskey k ∈ inp → k.name = rootName → Anchored p ianaAnchors k → Covers p T sig k (rrset inp rootName 48) →
      Secure p inp T rootName rootName 48
  | zoneKeys (parent z : Name) (sig : RRSig) (k : DnsKey) : Secure p inp T parent z 43 → parent ≠ z → z ≠ rootName →
      RR.rrsig sig ∈ inp → sig.name = z → sig.ty = 48 → sig.keyName = z →
      AtOwnName sig → RR.dnskey k ∈ inp → k.name = z → Anchored p (dsAt inp z) k → Covers p T sig k (rrset inp z 48) →
      Secure p inp T z z 48
  | signed (z : Name) (sig : RRSig) (k : DnsKey) : Secure p inp T z z 48 → RR.rrsig sig ∈ inp → sig.keyName = z → sig.ty ≠ 48 →
      NameWithin sig.name z → AtOwnName sig → RR.dnskey k ∈ inp → k.name = z → Covers p T sig k (rrset inp sig.name sig.ty) →
      Secure p inp T z sig.name sig.ty
  | wildcardNsec (z : Name) (sig : RRSig) (k : DnsKey) (name : Bytes) (n : NSec) : Secure p inp T z z 48 → RR.rrsig sig ∈ inp →
      sig.keyName = z → sig.ty ≠ 48 → NameWithin sig.name z → RR.dnskey k ∈ inp → k.name = z →
      Covers p T sig k (rrset inp sig.name sig.ty) → NextCloser sig name →
      RR.nsec n ∈ inp → Secure p inp T z n.name 47 → StrictlyBetween n name →
      Secure p inp T z sig.name sig.ty
  | wildcardNsec3 (z : Name) (sig : RRSig) (k : DnsKey) (name : Bytes) (n : NSec3) : Secure p inp T z z 48 → RR.rrsig sig ∈ inp →
      sig.keyName = z → sig.ty ≠ 48 → NameWithin sig.name z → RR.dnskey k ∈ inp → k.name = z →
      Covers p T sig k (rrset inp sig.name sig.ty) → NextCloser sig name →
      RR.nsec3 n ∈ inp → Secure p inp T z n.name 50 → HashStrictlyBetween p n name →
      Secure p inp T z sig.name sig.ty

/-- Proofs in which none of the things occurs that the code is known not to check as RFC 4035 says. Each of them can be seen in the
records, without knowing which are authentic. -/
structure Conventional (p : Platform) (inp : List RR) : Prop where
  /-- see C05, C12, C20 -/
  proper : ProperInput inp
  /-- signatures made since 1997 and valid for less than 68 years (C89) -/
  times : ∀ s, RR.rrsig s ∈ inp → 27 * 365 * 86400 ≤ s.inception.toNat ∧ instant s.expiration + 1 < instant s.inception + 2 ^ 31
  /-- key sets are signed in the name of their zone (C66) -/
  keySigner : ∀ s, RR.rrsig s ∈ inp → s.ty = 48 → s.keyName = s.name
  /-- key sets and DS sets are not made from wildcards (C84) -/
  chain : ∀ s, RR.rrsig s ∈ inp → s.ty = 43 ∨ s.ty = 48 → s.labels = s.name.labels
  /-- a signer's name is not the end of the text of an owner name unless it is the end of its labels (C22) -/
  within : ∀ s, RR.rrsig s ∈ inp → s.keyName = rootName ∨ s.name = s.keyName ∨
    ∀ pre, s.name.bytes = pre ++ s.keyName.bytes → ∃ pre', pre = pre' ++ [46]
  /-- no NSEC or NSEC3 record is at a name that a wildcard signature needs the denial of (C29) -/
  notAt : ∀ s name, RR.rrsig s ∈ inp → s.ty ≠ 47 → NextCloser s name →
    (∀ n, RR.nsec n ∈ inp → n.name.bytes.map foldCase ≠ name.map foldCase) ∧
    (∀ n label rest, RR.nsec3 n ∈ inp → n.name.bytes = label ++ 46 :: rest → 46 ∉ label →
      label.map toUpper ≠ base32hex (iteratedHash p.sha1 n.salt (nameWire name) n.hashIterations.toNat))
  /-- no two zones need the denial of the same name (C29) -/
  oneZone : ∀ s s' name, RR.rrsig s ∈ inp → RR.rrsig s' ∈ inp → s.ty ≠ 47 → s'.ty ≠ 47 → NextCloser s name → NextCloser s' name →
    s.keyName = s'.keyName
  /-- the NSEC and NSEC3 records below a zone which cover a name that it needs the denial of are the zone's (C29) -/
  sameZone : ∀ s name, RR.rrsig s ∈ inp → s.ty ≠ 47 → NextCloser s name →
    (∀ n, RR.nsec n ∈ inp → (∃ pre, n.name.bytes = pre ++ s.keyName.bytes) → StrictlyBetween n name →
      ∀ s', RR.rrsig s' ∈ inp → s'.name = n.name → s'.ty = 47 → s'.keyName = s.keyName) ∧
    (∀ n, RR.nsec3 n ∈ inp → (∃ pre, n.name.bytes = pre ++ s.keyName.bytes) → HashStrictlyBetween p n name →
      ∀ s', RR.rrsig s' ∈ inp → s'.name = n.name → s'.ty = 50 → s'.keyName = s.keyName)

end Dnssec.Spec
