import Verif.Spec.Unsupported

/-! # Specification for C103: key rollovers (RFC 6781 section 4.1) -/

namespace Dnssec.Spec

open Dnssec

/-- What a zone publishes at some time: its keys, the keys its parent has DS records for, the keys that sign the key set, and the keys that
sign everything else. -/
structure Stage where
  keys : List DnsKey
  vouched : List DnsKey
  keySigners : List DnsKey
  signers : List DnsKey

/-- RFC 6781 4.1.1.1, Pre-Publish Zone Signing Key Rollover: the zone signing key `z` is replaced by `z'`. -/
def prePublish (k z z' : DnsKey) : List Stage :=
  [⟨[k, z], [k], [k], [z]⟩, ⟨[k, z, z'], [k], [k], [z]⟩, ⟨[k, z, z'], [k], [k], [z']⟩, ⟨[k, z'], [k], [k], [z']⟩]

/-- RFC 6781 4.1.1.2, Double-Signature Zone Signing Key Rollover. -/
def doubleSignature (k z z' : DnsKey) : List Stage :=
  [⟨[k, z], [k], [k], [z]⟩, ⟨[k, z, z'], [k], [k], [z, z']⟩, ⟨[k, z'], [k], [k], [z']⟩]

/-- RFC 6781 4.1.2 and 4.1.2.1: Double-KSK (Double-Signature) Key Signing Key Rollover, the key signing key `k` is replaced by `k'`. -/
def doubleKsk (k k' z : DnsKey) : List Stage :=
  [⟨[k, z], [k], [k], [z]⟩, ⟨[k, k', z], [k], [k, k'], [z]⟩, ⟨[k, k', z], [k'], [k, k'], [z]⟩, ⟨[k', z], [k'], [k'], [z]⟩]

/-- RFC 6781 4.1.2.2: Double-DS Key Signing Key Rollover. -/
def doubleDs (k k' z : DnsKey) : List Stage :=
  [⟨[k, z], [k], [k], [z]⟩, ⟨[k, z], [k, k'], [k], [z]⟩, ⟨[k', z], [k, k'], [k'], [z]⟩, ⟨[k', z], [k'], [k'], [z]⟩]

/-- RFC 6781 4.1.4, the conservative algorithm rollover: `k'` and `z'` are of another algorithm than `k` and `z`. -/
def algorithmRollover (k z k' z' : DnsKey) : List Stage :=
  [⟨[k, z], [k], [k], [z]⟩, ⟨[k, z], [k], [k], [z, z']⟩, ⟨[k, z, k', z'], [k], [k, k'], [z, z']⟩,
   ⟨[k, z, k', z'], [k'], [k, k'], [z, z']⟩, ⟨[k', z'], [k'], [k'], [z, z']⟩, ⟨[k', z'], [k'], [k'], [z']⟩]

/-- What is seen of a rollover by someone whose resolver may have some of the DS set, the key set and the other records from its cache: each is
of one of two stages that follow each other. (The waiting times of RFC 6781 are such that nothing older is in a cache.) -/
def Seen (rollover : List Stage) (st : Stage) : Prop :=
  ∃ before a b after, rollover = before ++ a :: b :: after ∧
    ∃ d ∈ [a, b], ∃ k ∈ [a, b], ∃ s ∈ [a, b], st = ⟨k.keys, d.vouched, k.keySigners, s.signers⟩

/-- What RFC 4035 section 5 asks for: some key with a DS record has signed the key set, and some key of the set everything else. -/
def Stage.Validates (st : Stage) : Prop :=
  (∃ k ∈ st.keySigners, k ∈ st.vouched ∧ k ∈ st.keys) ∧ ∃ k ∈ st.signers, k ∈ st.keys

/-- The signature was made with this key. -/
def MadeBy (S : SigCheck) (s : RRSig) (k : DnsKey) (records : List RR) : Prop := S.good s [k] records

/-- In this input, the zone is at this stage. -/
structure AtStage (S : SigCheck) (p : Platform) (inp : List RR) (z : Name) (st : Stage) : Prop where
  keys : ∀ k, k ∈ keysAt inp z ↔ k ∈ st.keys
  vouched : ∀ k ∈ st.keys, Anchored p (anchors inp z) k ↔ k ∈ st.vouched
  onKeys : ∀ s ∈ keySigs inp z, ∃ k ∈ st.keySigners, MadeBy S s k ((keysAt inp z).map .dnskey)
  keySigners : ∀ k ∈ st.keySigners, ∃ s ∈ keySigs inp z, MadeBy S s k ((keysAt inp z).map .dnskey)
  sigs : ∀ s ∈ sigsBy inp z, ∃ k ∈ st.signers, MadeBy S s k (rrset inp s.name s.ty)
  signers : ∀ s ∈ sigsBy inp z, ∀ k ∈ st.signers, ∃ t ∈ sigsBy inp z, t.name = s.name ∧ t.ty = s.ty ∧ MadeBy S t k (rrset inp s.name s.ty)
  tags : ∀ k ∈ st.keys ++ st.keySigners ++ st.signers, ∀ k' ∈ st.keys ++ st.keySigners ++ st.signers,
    keyTag (rdata (.dnskey k)) = keyTag (rdata (.dnskey k')) → k = k'

/-- The zone signs names within it, no signatures, and wildcards as it should. -/
def Tidy (inp : List RR) (z : Name) : Prop :=
  ∀ s ∈ sigsBy inp z, (∃ pre, s.name.bytes = pre ++ z.bytes) ∧ s.ty ≠ 46 ∧
    (s.ty ≠ 43 → Expanded s → s.ty ≠ 50 ∧ s.labels.toNat < s.name.labels.toNat)

end Dnssec.Spec
