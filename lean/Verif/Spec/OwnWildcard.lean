import Verif.Spec.Chain

/-! # Specification for C107: wildcards under their own name -/

namespace Dnssec.Spec

open Dnssec

/-- The signature is over records of a wildcard presented under the wildcard's own name: the first label of the owner is `*`, and the number of
labels is that of the others (RFC 4034 3.1.3: the asterisk is not counted). Nothing has been expanded (RFC 4035 5.3.4, RFC 4592 2.2.1). -/
def OwnWildcard (s : RRSig) (rest : List Bytes) : Prop := HasLabels s.name (ascii "*" :: rest) ∧ s.labels.toNat = rest.length

end Dnssec.Spec
