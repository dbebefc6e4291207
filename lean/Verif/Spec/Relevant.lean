import Verif.Spec.Validation

/-! # Specification: which records of a proof matter

A proof is a list of records. A zone can be reached from the root if there are signatures over DS sets leading to it; a record matters if
it is in a record set for which there is a signature by such a zone, or is such a signature itself. Everything else - records
nobody signed, records of zones to which no delegation leads, their keys and signatures - is padding. -/

namespace Dnssec.Spec

/-- The zone whose keys are to check the signature: its signer, and for a signature over a key set (type 48) the zone the keys are of. -/
def sigZone (s : RRSig) : Name := if s.ty = 48 then s.name else s.keyName

/-- There are signatures over DS sets (type 43) from the root down to the zone. Whether the signatures are good is not asked. -/
inductive Delegated (inp : List RR) : Name → Prop where
  | root : Delegated inp rootName
  | step (s : RRSig) (d : DS) : RR.rrsig s ∈ inp → s.ty = 43 → Delegated inp s.keyName →
      RR.ds d ∈ inp → d.name = s.name → Delegated inp s.name

/-- The record is, or is in a set covered by, a signature of a zone to which delegations lead. -/
def Relevant (inp : List RR) (r : RR) : Prop :=
  ∃ s, RR.rrsig s ∈ inp ∧ Delegated inp (sigZone s) ∧ (r = RR.rrsig s ∨ (r.name = s.name ∧ r.ty = s.ty))

/-- The same records, possibly in another order, except that signatures may be repeated. -/
def SameUpToRepeatedSigs (inp inp' : List RR) : Prop :=
  (inp.filter (fun r => r.ty ≠ 46)).Perm (inp'.filter (fun r => r.ty ≠ 46)) ∧ ∀ s, RR.rrsig s ∈ inp ↔ RR.rrsig s ∈ inp'

/-- No signature claims to cover signatures (RFC 4035 2.2 forbids it). -/
def NoSigsOverSigs (inp : List RR) : Prop := ∀ s, RR.rrsig s ∈ inp → s.ty ≠ 46

end Dnssec.Spec
