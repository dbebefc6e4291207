import Verif.Spec.Resolve

/-! # Specification for C116: names with one redirection -/

namespace Dnssec.Spec

open Dnssec

/-- There is at most one way on from the name `m`: all CNAME records at it have the same target, and at most one DNAME record is for it. -/
def OneAlias (rrs : List RR) (m : Name) : Prop :=
  (∀ c c', RR.cname c ∈ rrs → RR.cname c' ∈ rrs → c.name = m → c'.name = m → c.canonicalName = c'.canonicalName) ∧
  ∀ d d', RR.dname d ∈ rrs → RR.dname d' ∈ rrs → DnameFor m (.dname d) → DnameFor m (.dname d') → d = d'

end Dnssec.Spec
