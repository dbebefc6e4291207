import Verif.Spec.Validation

/-! # Specification for C93: zones that cannot be validated for lack of a supported algorithm -/

namespace Dnssec.Spec

open Dnssec

/-- There is a delegation to the zone, but nothing in the proof with which its keys could be validated: all DS records have digest types
other than SHA-1, SHA-256 and SHA-384, or there are signatures over the key set, and all of them are by keys the delegation vouches for and
of unsupported algorithms. -/
def OnlyUnsupported (S : SigCheck) (p : Platform) (inp : List RR) (z : Name) : Prop :=
  anchors inp z ≠ [] ∧
  ((∀ d ∈ anchors inp z, d.digestType ≠ 1 ∧ d.digestType ≠ 2 ∧ d.digestType ≠ 4) ∨
   (keySigs inp z ≠ [] ∧
    ∀ s ∈ keySigs inp z, S.unsupported s (anchoredKeys p (anchors inp z) (keysAt inp z)) ((keysAt inp z).map .dnskey)))

/-- The operator of the zone wished to use something unsupported (RFC 4035 5.2, RFC 4509, RFC 6840 5.2): the DS set for the zone, which is
authenticated, is only of unknown digest types, or has a record of an unsupported algorithm, for a key of the zone. -/
def WishesUnsupported (S : SigCheck) (p : Platform) (inp : List RR) (z : Name) : Prop :=
  z ≠ rootName ∧ Reached S p inp z ∧
  ((dsAt inp z ≠ [] ∧ ∀ d ∈ dsAt inp z, Authenticated S p inp (.ds d) ∧ d.digestType ≠ 1 ∧ d.digestType ≠ 2 ∧ d.digestType ≠ 4) ∨
   ∃ d ∈ dsAt inp z, Authenticated S p inp (.ds d) ∧ ¬ Supported d.alg ∧ ∃ k ∈ keysAt inp z, Vouches p d k)

/-- RFC 4035 5.2: a zone is to be treated like an unsigned one "if the validator does not support any of the algorithms listed in an
authenticated DS RRset"; RFC 4509 3 and RFC 6840 5.2 say the same about digest types. No DS record of the zone is usable. -/
def NothingSupported (inp : List RR) (z : Name) : Prop :=
  ∀ d ∈ dsAt inp z, ¬ Supported d.alg ∨ (d.digestType ≠ 1 ∧ d.digestType ≠ 2 ∧ d.digestType ≠ 4)

/-- Everything in the zone is in order: what `InOrder` says of all zones that are reached. -/
def ZoneInOrder (S : SigCheck) (p : Platform) (inp : List RR) (z : Name) : Prop :=
  (∃ ksig, ZoneKeysOk S p inp z ksig) ∧
  ∀ s ∈ sigsBy inp z, (∃ pre, s.name.bytes = pre ++ z.bytes) ∧
    (S.unsupported s (keysAt inp z) (rrset inp s.name s.ty) ∨
      SignedBy S inp z s ∧ s.ty ≠ 46 ∧ (s.ty ≠ 43 → Expanded s → s.ty ≠ 50 ∧ s.labels.toNat < s.name.labels.toNat))

/-- A signature over the key set of the zone made up from the DS record alone. -/
def madeUp (z : Name) (d : DS) : RRSig where
  name := z
  ty := 48
  alg := d.alg
  labels := z.labels
  origTtl := 0
  expiration := 0
  inception := 0
  keyTag := d.keyTag
  keyName := z
  signature := []

/-- The proof without the signatures over the key set of the zone, and with a made up one instead. -/
def downgraded (inp : List RR) (z : Name) (d : DS) : List RR :=
  inp.filter (fun | .rrsig s => decide (¬ (s.name = z ∧ s.ty = 48)) | _ => true) ++ [.rrsig (madeUp z d)]

end Dnssec.Spec
