import Verif.Spec.Validation

/-! # Specification for C83: the denial records of a whole zone -/

namespace Dnssec.Spec

open Dnssec

/-- The NSEC records of a zone (RFC 4034 4.1.1): their owner names, all in the zone, are in canonical order, starting with the name of
the zone; each record names the owner of the following one, the last one names the zone again. -/
structure NsecChain (zone : Name) (chain : List NSec) : Prop where
  first : chain.head?.map (·.name) = some zone
  sorted : chain.Pairwise fun a b => TextLt a.name.bytes b.name.bytes
  next : ∀ i n, chain[i]? = some n → n.nextName = (chain[i + 1]?.map (·.name)).getD zone
  within : ∀ n ∈ chain, ∃ pre, n.name.bytes = pre ++ zone.bytes

/-- The record shows that no name of the zone is at `name`: it lies between two consecutive owners, or after the last one
(RFC 4035 5.4; RFC 4034 4.1.1: "The value of the Next Domain Name field in the last NSEC record in the zone is the name of the zone apex"). -/
def NsecCovers (zone : Name) (n : NSec) (name : Bytes) : Prop :=
  TextLt n.name.bytes name ∧ (TextLt name n.nextName.bytes ∨ n.nextName = zone)

/-- The NSEC3 records of a zone other than the root (RFC 5155 3.1.7, 7.1), each with the hash its owner name stands for: the hashes are in order; each
record has the hash of the following one, the last one the first hash; all use the same parameters, SHA-1 and no opt-out. -/
structure Nsec3Chain (zone : Name) (iterations : UInt16) (salt : Bytes) (chain : List (Bytes × NSec3)) : Prop where
  nonempty : chain ≠ []
  owner : ∀ e ∈ chain, e.1.length = 20 ∧ ∃ label, e.2.name.bytes = label ++ 46 :: zone.bytes ∧ 46 ∉ label ∧
    label.map toUpper = base32hex e.1
  sorted : chain.Pairwise fun a b => OctetLt a.1 b.1
  next : ∀ i e, chain[i]? = some e → some e.2.nextNameHash = (chain[i + 1]?.or chain[0]?).map (·.1)
  parameters : ∀ e ∈ chain, e.2.hashAlgo = 1 ∧ e.2.flags = 0 ∧ e.2.hashIterations = iterations ∧ e.2.salt = salt

/-- RFC 5155 1.3, "covers": the hash lies between the owner hash and the next one, or, for the last record, which names the first hash,
after the one or before the other. -/
def Nsec3Covers (start : Bytes) (n : NSec3) (hash : Bytes) : Prop :=
  (OctetLt start hash ∧ OctetLt hash n.nextNameHash) ∨
  (¬ OctetLt start n.nextNameHash ∧ (OctetLt start hash ∨ OctetLt hash n.nextNameHash))

/-- The next closer name (RFC 5155 1.3) for a signature over records expanded from a wildcard: one label more than the wildcard's parent. -/
def NextCloser (s : RRSig) (name : Bytes) : Prop :=
  ∃ pre next suf, HasLabels s.name (pre ++ next :: suf) ∧ suf.length = s.labels.toNat ∧ name = text (next :: suf)

/-- The proof contains all NSEC records of the zone, and the name lies between two of their owners. -/
def NsecBetween (S : SigCheck) (p : Platform) (inp : List RR) (z : Name) (name : Bytes) : Prop :=
  ∃ chain, NsecChain z chain ∧ (∀ n ∈ chain, Authenticated S p inp (.nsec n)) ∧ TextLt z.bytes name ∧
    (∀ n ∈ chain, n.name.bytes.map foldCase ≠ name.map foldCase) ∧ ∃ n ∈ chain, TextLt name n.name.bytes

/-- The proof contains all NSEC3 records of a chain of the zone, and those with an owner that ends like the zone's name have at most two
sets of parameters; the limit on iterations is met; and the hash of the name lies between two of the hashes of the chain. -/
def Nsec3Between (S : SigCheck) (p : Platform) (inp : List RR) (z : Name) (name : Bytes) : Prop :=
  ∃ iterations salt chain, Nsec3Chain z iterations salt chain ∧ (∀ e ∈ chain, Authenticated S p inp (.nsec3 e.2)) ∧
    (TwoParameterSets fun n => Authenticated S p inp (.nsec3 n) ∧ ∃ pre, n.name.bytes = pre ++ z.bytes) ∧
    iterations.toNat ≤ 2500 ∧ ∃ hash, hash = iteratedHash p.sha1 salt (nameWire name) iterations.toNat ∧
    (∀ e ∈ chain, e.1 ≠ hash) ∧ (∃ e ∈ chain, OctetLt e.1 hash) ∧ ∃ e ∈ chain, OctetLt hash e.1

end Dnssec.Spec
