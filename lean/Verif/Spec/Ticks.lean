import Verif.Spec.Query

/-! # Specification for C78: what reading a record takes besides its octets -/

namespace Dnssec.Spec

/-- The texts of the names in a record (RFC 1035 3.1), which are checked once they are put together, and the 65536 bits for the types that an
NSEC (RFC 4034 4.1) or NSEC3 record (RFC 5155 3.2) can list. -/
def besides (rr : RR) : Nat :=
  rr.name.bytes.length + ((rdataNames rr).map fun n => n.bytes.length).sum +
    (match rr with
    | .nsec _ => 65536 / 8
    | .nsec3 _ => 65536 / 8
    | _ => 0)

end Dnssec.Spec
