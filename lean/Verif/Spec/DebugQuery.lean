import Verif.Spec.Server

/-! # Responses with records too long to be written

Not part of the model: used in the statement of C77. -/

namespace Dnssec.Spec

/-- A message with an acceptable header that has, after records that can be read, an RRSIG that goes into the proof (an answer, or over
NSEC or NSEC3 records) and whose data takes more than 65535 octets once the name of the signer is written out. -/
def MessageOversize (resp : Bytes) : Prop :=
  ∃ flags answers authorities additional qname qtype qclass body recs sig ttl at_,
    IsMessage resp 0 flags 1 answers authorities additional qname qtype qclass body ∧
    (flagsOf flags).qr = true ∧ (flagsOf flags).opcode = 0 ∧ (flagsOf flags).tc = false ∧ (flagsOf flags).ad = true ∧
    ((flagsOf flags).rcode = 0 ∨ (flagsOf flags).rcode = 8) ∧ 1 ≤ answers.toNat ∧
    Records true resp (recs.length + 1) body (recs ++ [(.rrsig sig, ttl)]) at_ ∧
    (recs.length < answers.toNat ∨
      recs.length < answers.toNat + authorities.toNat ∧ (sig.ty.toNat = 47 ∨ sig.ty.toNat = 50)) ∧
    65535 < (rdata (.rrsig sig)).length

end Dnssec.Spec
