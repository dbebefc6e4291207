import Verif.Spec.Sig

/-! # Specification of the chain of trust (RFC 4035 section 5) -/

namespace Dnssec.Spec

open Dnssec

/-- What "this RRSIG verifies under these keys over these records" and "this RRSIG is of an unsupported algorithm" mean. -/
structure SigCheck where
  good : RRSig → List DnsKey → List RR → Prop
  unsupported : RRSig → List DnsKey → List RR → Prop

/-- As specified by RFC 4034/4035 (see `GoodSig`). -/
def rfcCheck (p : Platform) : SigCheck where
  good := GoodSig p
  unsupported sig keys records :=
    (∀ r ∈ records, r.ty = sig.ty) ∧ (∃ k ∈ keys, Eligible sig k) ∧ (∃ msg, SignedMessage sig records msg) ∧
    ¬ Supported sig.alg

/-- As decided by `verify_rrsig` (C20 says when that is; it agrees with `rfcCheck` on proper RRsets). -/
def codeCheck (p : Platform) : SigCheck where
  good sig keys records := verifyRrsig p sig keys records = .ok ()
  unsupported sig keys records := verifyRrsig p sig keys records = .err .unsupported

/-- Inputs all of whose signed RRsets are `Proper`: no owner or signer name has an empty label, no TXT record has empty data, and in
every RRset for which there is an RRSIG the records are ones that the crate puts in canonical order. -/
structure ProperInput (inp : List RR) : Prop where
  owners : ∀ r ∈ inp, ∃ ls, HasLabels r.name ls
  signers : ∀ s, RR.rrsig s ∈ inp → ∃ ls, HasLabels s.keyName ls
  txt : ∀ t, RR.txt t ∈ inp → t.data ≠ []
  order : ∀ s, RR.rrsig s ∈ inp → ∀ r ∈ inp, ∀ r' ∈ inp, r.name = s.name → r.ty = s.ty → r'.name = s.name → r'.ty = s.ty →
    r ≠ r' → Orderable r r'

/-- All records with this owner and type. -/
def rrset (inp : List RR) (n : Name) (ty : UInt16) : List RR := inp.filter (fun r => r.name = n ∧ r.ty = ty)

/-- The DNSKEYs of a zone. -/
def keysAt (inp : List RR) (z : Name) : List DnsKey :=
  inp.filterMap fun | .dnskey k => if k.name = z then some k else none | _ => none

/-- The DS records for a zone. -/
def dsAt (inp : List RR) (z : Name) : List DS :=
  inp.filterMap fun | .ds d => if d.name = z then some d else none | _ => none

/-- The RRSIGs over the zone's own DNSKEY set. -/
def keySigs (inp : List RR) (z : Name) : List RRSig :=
  inp.filterMap fun | .rrsig s => if s.name = z ∧ s.ty = 48 then some s else none | _ => none

/-- All other RRSIGs that name the zone as signer. -/
def sigsBy (inp : List RR) (z : Name) : List RRSig :=
  inp.filterMap fun | .rrsig s => if s.keyName = z ∧ s.ty ≠ 48 then some s else none | _ => none

/-- The trust anchors IANA publishes for the root (https://data.iana.org/root-anchors/root-anchors.xml): the key signing keys of 2010 and
2017, algorithm 8, SHA-256. -/
def ianaAnchors : List DS :=
  [⟨rootName, 19036, 8, 2, unhex (ascii "49AAC11D7B6F6446702E54A1607371607A1A41855200FD2CE1CDDE32F24E8FB5")⟩,
   ⟨rootName, 20326, 8, 2, unhex (ascii "E06D44B80B8F1D39A95C0B0D7C65D08458E880409BBC683457104237C7F8EC8D")⟩]

/-- The trust anchors of a zone: IANA's for the root, the DS records for any other zone. -/
def anchors (inp : List RR) (z : Name) : List DS := if z = rootName then ianaAnchors else dsAt inp z

/-- RFC 4034 5.1.4: the bytes a DS digest is taken of: owner name and DNSKEY RDATA. -/
def digestInput (k : DnsKey) : Bytes := nameWire k.name.bytes ++ rdata (.dnskey k)

/-- The DS record `d` vouches for the key `k`. -/
def Vouches (p : Platform) (d : DS) (k : DnsKey) : Prop :=
  d.alg = k.alg ∧ d.keyTag.toNat = keyTag (rdata (.dnskey k)) ∧
  ((d.digestType = 1 ∧ p.sha1 (digestInput k) = d.digest) ∨ (d.digestType = 2 ∧ p.sha256 (digestInput k) = d.digest))

/-- Some DS record of the set vouches for the key; a SHA-1 one only if there are no SHA-256/384 ones. -/
def Anchored (p : Platform) (dses : List DS) (k : DnsKey) : Prop :=
  ∃ d ∈ dses, Vouches p d k ∧ (d.digestType = 1 → ∀ d' ∈ dses, d'.digestType ≠ 2 ∧ d'.digestType ≠ 4)

instance (p : Platform) (d : DS) (k : DnsKey) : Decidable (Vouches p d k) := by unfold Vouches; infer_instance
instance (p : Platform) (dses : List DS) (k : DnsKey) : Decidable (Anchored p dses k) := by unfold Anchored; infer_instance

/-- The keys of a zone some trust anchor vouches for. -/
def anchoredKeys (p : Platform) (dses : List DS) (keys : List DnsKey) : List DnsKey :=
  keys.filter (fun k => Anchored p dses k)

/-- `sig` establishes the key set `keys` from the DS set `dses`: it is the first of `sigs` of a supported algorithm, and it
verifies over the whole key set under an anchored key. -/
def Establishes (S : SigCheck) (p : Platform) (sigs : List RRSig) (dses : List DS) (keys : List DnsKey) (sig : RRSig) : Prop :=
  (∃ d ∈ dses, d.digestType = 1 ∨ d.digestType = 2 ∨ d.digestType = 4) ∧
  ∃ before after, sigs = before ++ sig :: after ∧
    (∀ s ∈ before, S.unsupported s (anchoredKeys p dses keys) (keys.map .dnskey)) ∧
    S.good sig (anchoredKeys p dses keys) (keys.map .dnskey)

/-- The key set of zone `z` in the input is authenticated by its trust anchors, through `sig`. -/
def ZoneKeysOk (S : SigCheck) (p : Platform) (inp : List RR) (z : Name) (sig : RRSig) : Prop :=
  Establishes S p (keySigs inp z) (anchors inp z) (keysAt inp z) sig

/-- `sig` is a verified RRSIG made by zone `z` (over anything but a DNSKEY set). -/
def SignedBy (S : SigCheck) (inp : List RR) (z : Name) (sig : RRSig) : Prop :=
  sig ∈ sigsBy inp z ∧ S.good sig (keysAt inp z) (rrset inp sig.name sig.ty)

/-- The zones reached from the root: a zone is reached if a reached zone with an authenticated key set has signed a DS set
for it. -/
inductive Reached (S : SigCheck) (p : Platform) (inp : List RR) : Name → Prop
  | root : Reached S p inp rootName
  | delegated (z : Name) (ksig sig : RRSig) : Reached S p inp z → ZoneKeysOk S p inp z ksig → SignedBy S inp z sig →
      sig.ty = 43 → Reached S p inp sig.name

/-- `r` is authenticated: it is in the RRset of an RRSIG verified under the authenticated keys of a reached zone. -/
def Authenticated (S : SigCheck) (p : Platform) (inp : List RR) (r : RR) : Prop :=
  ∃ z ksig sig, Reached S p inp z ∧ ZoneKeysOk S p inp z ksig ∧ SignedBy S inp z sig ∧ r ∈ inp ∧ r.name = sig.name ∧
    r.ty = sig.ty

/-- The RRSIGs used: those that establish key sets of reached zones and all those verified under these keys. -/
def Used (S : SigCheck) (p : Platform) (inp : List RR) (sig : RRSig) : Prop :=
  ∃ z, Reached S p inp z ∧ (ZoneKeysOk S p inp z sig ∨ SignedBy S inp z sig)

/-- `m` is the largest value of `f` on the set `P`, attained. -/
def IsMaxOf {α : Type} (P : α → Prop) (f : α → Nat) (m : Nat) : Prop := (∃ a, P a ∧ f a = m) ∧ ∀ a, P a → f a ≤ m

/-- `m` is the smallest value of `f` on the set `P`, attained. -/
def IsMinOf {α : Type} (P : α → Prop) (f : α → Nat) (m : Nat) : Prop := (∃ a, P a ∧ f a = m) ∧ ∀ a, P a → m ≤ f a

/-- `sig` was made for a wildcard that its owner name was expanded from (fewer labels). NSEC records are their own names. -/
def Expanded (sig : RRSig) : Prop := sig.labels ≠ sig.name.labels ∧ sig.ty ≠ 47

/-- RFC 5155 section 5: `IH(salt, x, 0) = H(x || salt)`, `IH(salt, x, k) = H(IH(salt, x, k-1) || salt)`. -/
def iteratedHash (H : Bytes → Bytes) (salt x : Bytes) : Nat → Bytes
  | 0 => H (x ++ salt)
  | k + 1 => H (iteratedHash H salt x k ++ salt)

/-- The NSEC record `n` speaks about `name`: it is the owner and does not have the type, or it lies in the range from the
owner (inclusive, unlike RFC 4035!) to the next name (exclusive), in the canonical order. -/
def NsecDenies (n : NSec) (name : Bytes) (ty : UInt16) : Prop :=
  (n.name.bytes = name ∧ n.types.containsType ty = false) ∨
  ((n.name.bytes.map foldCase = name.map foldCase ∨ TextLt n.name.bytes name) ∧ TextLt name n.nextName.bytes)

/-- The same for an NSEC3 record: SHA-1, no flags, at most 2500 iterations, 20-byte hashes, and the hash of the name equal
to the owner hash without the type present, or in the range from the owner hash (inclusive) to the next hash (exclusive). -/
structure Nsec3Denies (p : Platform) (n : NSec3) (name : Bytes) (ty : UInt16) : Prop where
  flags : n.flags = 0
  algo : n.hashAlgo = 1
  iterations : n.hashIterations.toNat ≤ 2500
  denies : ∃ label rest start hash, n.name.bytes = label ++ 46 :: rest ∧ 46 ∉ label ∧ label.map toUpper = base32hex start ∧
    start.length = 20 ∧ n.nextNameHash.length = 20 ∧ hash = iteratedHash p.sha1 n.salt (nameWire name) n.hashIterations.toNat ∧
    ((start = hash ∧ n.types.containsType ty = false) ∨
     ((start = hash ∨ OctetLt start hash) ∧ OctetLt hash n.nextNameHash))

/-- Some authenticated NSEC or NSEC3 record denies `ty` at `name`. -/
def Denied (S : SigCheck) (p : Platform) (inp : List RR) (name : Bytes) (ty : UInt16) : Prop :=
  (∃ n, Authenticated S p inp (.nsec n) ∧ NsecDenies n name ty) ∨
  (∃ n, Authenticated S p inp (.nsec3 n) ∧ Nsec3Denies p n name ty)

/-- Some zone the root delegates to. -/
def RootDelegates (S : SigCheck) (inp : List RR) : Prop := ∃ s, SignedBy S inp rootName s ∧ s.ty = 43

/-- Some reached zone signs a DS set for its own name. -/
def SelfDelegation (S : SigCheck) (p : Platform) (inp : List RR) : Prop :=
  ∃ z, Reached S p inp z ∧ ∃ s, SignedBy S inp z s ∧ s.ty = 43 ∧ s.name = z

/-- Everything in the reached zones is in order: the key sets are authenticated, and every signature by the zone is for a
name within it, and either of an unsupported algorithm or good, not over RRSIGs, and, if it is for a wildcard, not over
NSEC3 records and with fewer labels than its owner. -/
def InOrder (S : SigCheck) (p : Platform) (inp : List RR) : Prop :=
  ∀ z, Reached S p inp z → (∃ ksig, ZoneKeysOk S p inp z ksig) ∧
    ∀ s ∈ sigsBy inp z, (∃ pre, s.name.bytes = pre ++ z.bytes) ∧
      (S.unsupported s (keysAt inp z) (rrset inp s.name s.ty) ∨
        SignedBy S inp z s ∧ s.ty ≠ 46 ∧ (s.ty ≠ 43 → Expanded s → s.ty ≠ 50 ∧ s.labels.toNat < s.name.labels.toNat))

/-- All signatures used have a common moment of validity. -/
def CommonWindow (S : SigCheck) (p : Platform) (inp : List RR) : Prop :=
  ∀ s t, Used S p inp s → Used S p inp t → instant s.inception < instant t.expiration

/-- The NSEC3 records with this property, of a known hash algorithm and within the limit on iterations, use at most two sets of parameters
(iterations and salt), such as while a zone changes them. -/
def TwoParameterSets (P : NSec3 → Prop) : Prop :=
  ∃ a b : UInt16 × Bytes, ∀ n, P n → n.hashAlgo = 1 → n.hashIterations.toNat ≤ 2500 →
    (n.hashIterations, n.salt) = a ∨ (n.hashIterations, n.salt) = b

/-- An authenticated NSEC record of the zone denies the name and type, or an NSEC3 record does and the NSEC3 records of the
zone use at most two sets of parameters. -/
def DeniedIn (S : SigCheck) (p : Platform) (inp : List RR) (zone : Name) (name : Bytes) (ty : UInt16) : Prop :=
  (∃ n, Authenticated S p inp (.nsec n) ∧ (∃ pre, n.name.bytes = pre ++ zone.bytes) ∧ NsecDenies n name ty) ∨
  (∃ n, Authenticated S p inp (.nsec3 n) ∧ (∃ pre, n.name.bytes = pre ++ zone.bytes) ∧ Nsec3Denies p n name ty ∧
    TwoParameterSets fun n' => Authenticated S p inp (.nsec3 n') ∧ ∃ pre, n'.name.bytes = pre ++ zone.bytes)

/-- Every wildcard expansion comes with a denial of the next closer name. -/
def WildcardsDenied (S : SigCheck) (p : Platform) (inp : List RR) : Prop :=
  ∀ z s, Reached S p inp z → SignedBy S inp z s → s.ty ≠ 43 → Expanded s →
    ∀ name, s.name.trailingNLabels (s.labels + 1) = some name → DeniedIn S p inp z name s.ty

/-- The authenticated NSEC3 records of each zone use at most two sets of parameters, and no two expansions in different zones need the
denial of the same name. -/
def UniformDenials (S : SigCheck) (p : Platform) (inp : List RR) : Prop :=
  (∀ z, Reached S p inp z →
    TwoParameterSets fun n => Authenticated S p inp (.nsec3 n) ∧ ∃ pre, n.name.bytes = pre ++ z.bytes) ∧
  (∀ z s z' s', Reached S p inp z → SignedBy S inp z s → s.ty ≠ 43 → Expanded s →
    Reached S p inp z' → SignedBy S inp z' s' → s'.ty ≠ 43 → Expanded s' →
    ∀ name, s.name.trailingNLabels (s.labels + 1) = some name → s'.name.trailingNLabels (s'.labels + 1) = some name → z = z')

/-- No two different keys of a zone can be used for the same signature. -/
def NoTagCollision (inp : List RR) : Prop :=
  ∀ s, RR.rrsig s ∈ inp → ∀ k k', RR.dnskey k ∈ inp → RR.dnskey k' ∈ inp → k.name = k'.name → Eligible s k → Eligible s k' → k = k'

/-- No zone has two different signatures over its key set. -/
def OneKeySig (inp : List RR) : Prop :=
  ∀ s s', RR.rrsig s ∈ inp → RR.rrsig s' ∈ inp → s.ty = 48 → s'.ty = 48 → s.name = s'.name → s = s'

/-- All signatures of supported algorithms over the key set of a zone have the same times and the same original TTL. -/
def SameKeyTimes (inp : List RR) : Prop :=
  ∀ s s', RR.rrsig s ∈ inp → RR.rrsig s' ∈ inp → s.ty = 48 → s'.ty = 48 → s.name = s'.name → Supported s.alg → Supported s'.alg →
    s.inception = s'.inception ∧ s.expiration = s'.expiration ∧ s.origTtl = s'.origTtl

/-- If one signature over the key set of a reached zone is good (under an anchored key), all of them are, except for those of
unsupported algorithms by anchored keys. -/
def KeySigsAgree (S : SigCheck) (p : Platform) (inp : List RR) : Prop :=
  ∀ z, Reached S p inp z → ∀ s ∈ keySigs inp z, ∀ s' ∈ keySigs inp z,
    S.good s (anchoredKeys p (anchors inp z) (keysAt inp z)) ((keysAt inp z).map .dnskey) →
    S.good s' (anchoredKeys p (anchors inp z) (keysAt inp z)) ((keysAt inp z).map .dnskey) ∨
    S.unsupported s' (anchoredKeys p (anchors inp z) (keysAt inp z)) ((keysAt inp z).map .dnskey)

end Dnssec.Spec
