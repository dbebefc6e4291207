import Verif.Spec.Query
import Verif.Spec.Validation

/-! # Specification of a correctly signed part of the DNS and of a resolver that answers from it -/

namespace Dnssec.Spec

open Dnssec

/-- An RRset with its signatures. -/
structure SignedSet where
  owner : Name
  ty : UInt16
  records : List RR
  sigs : List RRSig

/-- The records of the set followed by the RRSIGs. -/
def SignedSet.all (s : SignedSet) : List RR := s.records ++ s.sigs.map .rrsig

/-- All records are of the owner and type given, and the RRSIGs cover them. -/
structure SignedSet.WellFormed (s : SignedSet) : Prop where
  nonempty : s.records ≠ []
  members : ∀ r ∈ s.records, r.name = s.owner ∧ r.ty = s.ty
  covers : ∀ sig ∈ s.sigs, sig.name = s.owner ∧ sig.ty = s.ty
  notSig : s.ty ≠ 46

/-- A zone below the root: its DNSKEY set, and the DS set for it in the parent zone. -/
structure Zone where
  keys : SignedSet
  ds : SignedSet

/-- The DNS as far as the answer to one question depends on it: the RRsets of that answer (those asked for, aliases leading there and
denials), the key set of the root, and the zones below the root involved. -/
structure World where
  answer : List SignedSet
  root : SignedSet
  zones : List Zone

/-- All RRsets. -/
def World.sets (w : World) : List SignedSet := w.answer ++ w.root :: w.zones.flatMap (fun z => [z.keys, z.ds])

/-- All records, including the RRSIGs. -/
def World.records (w : World) : List RR := w.sets.flatMap SignedSet.all

/-- `sig` is a good signature over these records (RFC 4034 3.1.8.1) by one of the keys, the only one with its tag and algorithm. -/
def SignedByOne (p : Platform) (sig : RRSig) (keys : List DnsKey) (records : List RR) : Prop :=
  ∃ k ∈ keys, Eligible sig k ∧ (∀ k' ∈ keys, Eligible sig k' → k' = k) ∧
    ∃ msg, SignedMessage sig records msg ∧ CryptoOk p sig.alg k.pubkey msg sig.signature

/-- `sig` is over these records, by one of the keys, with an algorithm the crate does not know. -/
def OtherAlgorithm (sig : RRSig) (keys : List DnsKey) (records : List RR) : Prop :=
  (∃ k ∈ keys, Eligible sig k) ∧ (∃ msg, SignedMessage sig records msg) ∧ ¬ Supported sig.alg

/-- Some NSEC or NSEC3 record of the answer and the zone denies the name and type; if NSEC3, those of the zone have at most two sets of
parameters. -/
def World.Denies (p : Platform) (w : World) (zone : Name) (name : Bytes) (ty : UInt16) : Prop :=
  (∃ s ∈ w.answer, ∃ n, RR.nsec n ∈ s.records ∧ (∃ pre, n.name.bytes = pre ++ zone.bytes) ∧ NsecDenies n name ty) ∨
  (∃ s ∈ w.answer, ∃ n, RR.nsec3 n ∈ s.records ∧ (∃ pre, n.name.bytes = pre ++ zone.bytes) ∧ Nsec3Denies p n name ty ∧
    TwoParameterSets fun n' => ∃ s' ∈ w.answer, RR.nsec3 n' ∈ s'.records ∧ ∃ pre, n'.name.bytes = pre ++ zone.bytes)

/-- The zones a verifier of the answer needs the keys of: the signers of the answer, and the signers of the DS sets of zones needed. -/
inductive World.Needs (w : World) : Name → Prop
  | answer (s : SignedSet) (sig : RRSig) : s ∈ w.answer → sig ∈ s.sigs → w.Needs sig.keyName
  | parent (z : Zone) (sig : RRSig) : z ∈ w.zones → w.Needs z.keys.owner → sig ∈ z.ds.sigs → w.Needs sig.keyName

/-- The world is correctly signed. -/
structure World.Signed (p : Platform) (w : World) : Prop where
  /-- Every RRset is one, and no two have the same owner and type. -/
  wellFormed : ∀ s ∈ w.sets, s.WellFormed
  distinct : w.sets.Pairwise (fun s t => ¬ (s.owner = t.owner ∧ s.ty = t.ty))
  /-- Key sets, DS sets, and other types in the answer. -/
  rootSet : w.root.owner = rootName ∧ w.root.ty = 48
  zoneSets : ∀ z ∈ w.zones, z.keys.ty = 48 ∧ z.ds.ty = 43 ∧ z.ds.owner = z.keys.owner
  answerSets : ∀ s ∈ w.answer, s.ty ≠ 48 ∧ s.ty ≠ 43
  /-- Each key set is signed by the zone, once or several times, and at least once with a key the DS set (the trust anchors) vouches
  for. -/
  keySets : ∀ s ∈ w.sets, s.ty = 48 →
    (∀ sig ∈ s.sigs, sig.keyName = s.owner ∧
      (SignedByOne p sig (keysAt w.records s.owner) s.records ∨ OtherAlgorithm sig (keysAt w.records s.owner) s.records)) ∧
    ∃ sig ∈ s.sigs, SignedByOne p sig (anchoredKeys p (anchors w.records s.owner) (keysAt w.records s.owner)) s.records
  /-- Every other set is signed, once or several times, by zones it belongs to, DS sets by a parent. -/
  otherSets : ∀ s ∈ w.sets, s.ty ≠ 48 →
    (∀ sig ∈ s.sigs, (sig.keyName = rootName ∨ ∃ z ∈ w.zones, sig.keyName = z.keys.owner) ∧
      (∃ pre, s.owner.bytes = pre ++ sig.keyName.bytes) ∧ (s.ty = 43 → s.owner ≠ sig.keyName) ∧
      (SignedByOne p sig (keysAt w.records sig.keyName) s.records ∨ OtherAlgorithm sig (keysAt w.records sig.keyName) s.records)) ∧
    ∃ sig ∈ s.sigs, SignedByOne p sig (keysAt w.records sig.keyName) s.records
  /-- There are only zones that are needed. -/
  needed : w.Needs rootName ∧ ∀ z ∈ w.zones, w.Needs z.keys.owner
  /-- All signatures are valid at a common moment. -/
  window : ∀ s ∈ w.sets, ∀ t ∈ w.sets, ∀ a ∈ s.sigs, ∀ b ∈ t.sigs, instant a.inception < instant b.expiration
  /-- A signature with another number of labels than its owner (expansion of a wildcard, RFC 4034 3.1.3) is not for an NSEC3 set, has
  fewer labels, and comes with a denial of the next closer name, which has one label more than the signature says. NSEC sets are exempt. -/
  wildcards : ∀ s ∈ w.answer, s.ty ≠ 47 → ∀ sig ∈ s.sigs, ∀ ls, HasLabels s.owner ls → sig.labels.toNat ≠ ls.length → s.ty ≠ 50 ∧
    ∃ pre next suf, ls = pre ++ next :: suf ∧ suf.length = sig.labels.toNat ∧ w.Denies p sig.keyName (text (next :: suf)) s.ty
  /-- The records can be written (C03), and the RRsets can be put in canonical order by the crate (C12). -/
  encodable : ∀ r ∈ w.records, Encodable r
  order : ∀ s ∈ w.sets, ∀ r ∈ s.records, ∀ r' ∈ s.records, r ≠ r' → Orderable r r'

/-- The zones sign their key sets only with keys the DS set (the trust anchors) vouches for. (RFC 4035 2.2 allows more signatures, and
signing key sets with zone signing keys too is common.) -/
def World.KeySetsByAnchored (p : Platform) (w : World) : Prop := ∀ s ∈ w.sets, s.ty = 48 → ∀ sig ∈ s.sigs,
  SignedByOne p sig (anchoredKeys p (anchors w.records s.owner) (keysAt w.records s.owner)) s.records ∨
  OtherAlgorithm sig (anchoredKeys p (anchors w.records s.owner) (keysAt w.records s.owner)) s.records

/-- Of these signatures over the key set `s`, the first one of a supported algorithm is a good signature by a key the DS set (the trust anchors)
vouches for, and those before it are by such keys too. -/
def World.AnchoredFirst (p : Platform) (w : World) (s : SignedSet) (sigs : List RRSig) : Prop :=
  ∃ before sig after, sigs = before ++ sig :: after ∧
    (∀ x ∈ before, OtherAlgorithm x (anchoredKeys p (anchors w.records s.owner) (keysAt w.records s.owner)) s.records) ∧
    SignedByOne p sig (anchoredKeys p (anchors w.records s.owner) (keysAt w.records s.owner)) s.records

/-- Such signatures over key sets are first in these records. -/
def World.AnchoredFirstIn (p : Platform) (w : World) (inp : List RR) : Prop :=
  ∀ s ∈ w.sets, s.ty = 48 → w.AnchoredFirst p s (keySigs inp s.owner)

/-- The response contributes these records, in some order, with any TTLs. -/
def Gives (dbg : Bool) (resp : Bytes) (rs : List RR) : Prop := ∃ recs, Contributes dbg resp recs ∧ (recs.map Prod.fst).Perm rs

/-- Records without signatures, such as the CNAME that a server makes up from a DNAME (RFC 6672 3.1): there is no set in the world they
could be taken for a member of. -/
def World.Unsigned (w : World) (extra : List RR) : Prop := ∀ r ∈ extra, r.ty ≠ 46 ∧ Encodable r ∧
  ∀ s ∈ w.sets, ¬ (s.owner = r.name ∧ s.ty = r.ty)

/-- A correctly functioning resolver: it answers the question with the answer sets, and maybe records without signatures, and each question
for the keys or the DS set of a zone with the respective set. -/
structure Honest (dbg : Bool) (w : World) (name : Name) (ty : UInt16) (resolve : Bytes → Bytes) : Prop where
  answer : ∃ extra, w.Unsigned extra ∧ Gives dbg (resolve (queryMessage (nameWire name.bytes) ty)) (w.answer.flatMap SignedSet.all ++ extra)
  root : Gives dbg (resolve (queryMessage (nameWire rootName.bytes) 48)) w.root.all
  keys : ∀ z ∈ w.zones, Gives dbg (resolve (queryMessage (nameWire z.keys.owner.bytes) 48)) z.keys.all
  ds : ∀ z ∈ w.zones, Gives dbg (resolve (queryMessage (nameWire z.keys.owner.bytes) 43)) z.ds.all

/-- Such signatures are first in the responses with key sets. -/
def World.AnsweredAnchoredFirst (dbg : Bool) (p : Platform) (w : World) (resolve : Bytes → Bytes) : Prop :=
  ∀ s ∈ w.sets, s.ty = 48 → ∀ recs, Contributes dbg (resolve (queryMessage (nameWire s.owner.bytes) 48)) recs →
    w.AnchoredFirst p s (keySigs (recs.map Prod.fst) s.owner)

/-- A session of a `ProofBuilder` with a resolver, where the outstanding queries are answered in any order: the queries outstanding,
those answered (and the responses accepted), and the builder. -/
inductive Session (dbg : Bool) (resolve : Bytes → Bytes) (name : Name) (ty : UInt16) : List Bytes → List Bytes → ProofBuilder → Prop
  | new : Session dbg resolve name ty [(ProofBuilder.new name ty).2] [] (ProofBuilder.new name ty).1
  | respond {before after answered more : List Bytes} {q : Bytes} {b b' : ProofBuilder} :
      Session dbg resolve name ty (before ++ q :: after) answered b → b.processResponse dbg (resolve q) = (b', .ok more) →
      Session dbg resolve name ty (before ++ after ++ more) (answered ++ [q]) b'

end Dnssec.Spec
