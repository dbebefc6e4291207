import Verif.Spec.World

/-! # Specification for C104: authentication chains (RFC 9102 3) -/

namespace Dnssec.Spec

open Dnssec

/-- RRsets one after the other, each with its signatures. -/
inductive Blocks : List SignedSet → List (RR × UInt32) → Prop
  | nil : Blocks [] []
  | cons {s : SignedSet} {ss : List SignedSet} {recs rest : List (RR × UInt32)} :
      (recs.map Prod.fst).Perm s.all → Blocks ss rest → Blocks (s :: ss) (recs ++ rest)

/-- "The first RRset in the chain MUST contain the [...] RRset being presented", preceded by the aliases that lead to it; "the subsequent RRsets
MUST contain the full set of DNS records needed to authenticate" it from the trust anchor: "a set of DNSKEY and DS RRsets that cover all zones",
in any order. All are uncompressed resource records in wire format, with "all corresponding RRSIG RRs". `first` is the part with the answer. -/
def AuthenticationChain (w : World) (first : List (RR × UInt32)) (chain : Bytes) : Prop :=
  ∃ ss rest, ss.Perm (w.root :: w.zones.flatMap fun z => [z.keys, z.ds]) ∧ Blocks ss rest ∧ chain = encode (first ++ rest)

end Dnssec.Spec
