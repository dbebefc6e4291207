import Verif.Spec.Query

/-! # Specification for C108: responses without name compression -/

namespace Dnssec.Spec

open Dnssec

/-- RFC 1035 4.1: a response (QR, RD, RA and AD set) with one question and the given answers, nothing else and no name compression. -/
def plainMessage (qname : List Bytes) (qtype : UInt16) (recs : List (RR × UInt32)) : Bytes :=
  be16 0 ++ (be16 0x81a0 ++ (be16 1 ++ (be16 (UInt16.ofNat recs.length) ++ (be16 0 ++ (be16 0 ++
    (wire qname ++ (be16 qtype ++ (be16 1 ++ encode recs))))))))

end Dnssec.Spec
