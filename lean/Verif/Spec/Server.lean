import Verif.Spec.Http
import Verif.Spec.World

/-! # Specification of the responses on which building a proof panics -/

namespace Dnssec.Spec

open Dnssec

/-- At `inp` in the message there is a record of class IN whose RDATA makes the parser panic (C06). -/
def RecordPanics (dbg : Bool) (msg inp : Bytes) : Prop :=
  ∃ name ty ttl data r1 rest, ReadsName msg inp name r1 ∧
    r1 = be16 ty ++ (be16 1 ++ (be32 ttl ++ (be16 (UInt16.ofNat data.length) ++ (data ++ rest)))) ∧ data.length ≤ 65535 ∧
    RDataPanics dbg msg ty data

/-- A message with an acceptable header, one of whose answer or authority records makes the parser panic while those before it can be
read. -/
def MessagePanics (dbg : Bool) (resp : Bytes) : Prop :=
  ∃ flags answers authorities additional qname qtype qclass body recs at_ k,
    IsMessage resp 0 flags 1 answers authorities additional qname qtype qclass body ∧
    (flagsOf flags).qr = true ∧ (flagsOf flags).opcode = 0 ∧ (flagsOf flags).tc = false ∧ (flagsOf flags).ad = true ∧
    ((flagsOf flags).rcode = 0 ∨ (flagsOf flags).rcode = 8) ∧ 1 ≤ answers.toNat ∧
    k < answers.toNat + authorities.toNat ∧ Records dbg resp k body recs at_ ∧ RecordPanics dbg resp at_

end Dnssec.Spec
