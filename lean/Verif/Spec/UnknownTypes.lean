import Verif.Spec.Leftover

/-! # Specification of records of other types (C109) -/

namespace Dnssec.Spec

open Dnssec

/-- The types of the records this crate has: A, NS, CNAME, TXT, AAAA, DNAME, DS, RRSIG, NSEC, DNSKEY, NSEC3, TLSA. -/
def knownTypes : List Nat := [1, 2, 5, 16, 28, 39, 43, 46, 47, 48, 50, 52]

/-- RFC 1035 4.1.3, RFC 3597: in the message `msg`, `inp` starts with a record with this owner, type, class, TTL and RDATA, followed by `rest`; whatever the RDATA
may be. -/
def AnyRecord (msg inp : Bytes) (owner : Name) (ty cls : UInt16) (ttl : UInt32) (data rest : Bytes) : Prop :=
  data.length ≤ 65535 ∧ ReadsName msg inp owner (be16 ty ++ be16 cls ++ (be32 ttl ++ be16 (UInt16.ofNat data.length) ++ data ++ rest))

end Dnssec.Spec
