import Verif.Proofs.PlainMessage
import Verif.Props.Query

/-! # C108: only the records of a response matter -/

namespace Dnssec.Props

open Dnssec Dnssec.Spec

variable {dbg dbg' : Bool} {resp resp' : Bytes} {recs : List (RR × UInt32)}

/-- **C108.** Two responses that contribute the same records, with the same TTLs, have the same effect on every builder: the same proof, TTL, further
queries and state. -/
theorem C108_only_records (h : Contributes dbg resp recs) (h' : Contributes dbg' resp' recs) (b : ProofBuilder) :
    b.processResponse dbg resp = b.processResponse dbg' resp' := processResponse_congr h h' b

/-- **C108.** Whatever follows the authority section of an accepted response, nothing changes. -/
theorem C108_rest_ignored {b b' : ProofBuilder} {more : List Bytes} (h : b.processResponse dbg resp = (b', .ok more)) (tail : Bytes) :
    b.processResponse dbg (resp ++ tail) = (b', .ok more) := by
  obtain ⟨recs, _, hc, _⟩ := C41_contributes h
  rw [← h]
  exact processResponse_congr (contributes_append tail hc) hc b

/-- **C108.** Every accepted response has the effect of the plain message, without name compression, with the records it contributes as answers
to whatever question (if they can be written, C03, and are no more than a message can have). -/
theorem C108_uncompressed {b b' : ProofBuilder} {more : List Bytes} (h : b.processResponse dbg resp = (b', .ok more))
    (hc : Contributes dbg resp recs) (he : ∀ r ∈ recs, Encodable r.1) (hlen : recs.length ≤ 65535)
    {qname : List Bytes} (hq : ∀ l ∈ qname, Label l) (hs : (text qname).length ≤ 255) (qtype : UInt16) :
    b.processResponse dbg' (plainMessage qname qtype recs) = (b', .ok more) := by
  have hne : recs ≠ [] := contributes_ne_nil hc
  rw [← h]
  exact processResponse_congr (contributes_plain hq hs qtype hne hlen he) hc b

/-- A record. -/
def exTxt' : RR := .txt ⟨⟨ascii "a.example.com."⟩, ascii "hello"⟩

/-- A response to the query for `a.example.com.` in which the owner name is a pointer to the question, with capital letters there. -/
def compressedResponse : Bytes :=
  be16 0 ++ be16 0x81a0 ++ be16 1 ++ be16 1 ++ be16 0 ++ be16 1 ++ (writeName (ascii "A.Example.com.") ++ be16 16 ++ be16 1) ++
    ([0xc0, 12] ++ be16 16 ++ be16 1 ++ be32 300 ++ be16 6 ++ 5 :: ascii "hello")

/-- It has the effect of the plain message with the same record, also with an OPT record and other octets at the end. -/
example : compressedResponse ≠ plainMessage [ascii "a", ascii "example", ascii "com"] 16 [(exTxt', 300)] ∧
    exBuilder.processResponse true compressedResponse =
      exBuilder.processResponse true (plainMessage [ascii "a", ascii "example", ascii "com"] 16 [(exTxt', 300)]) ∧
    exBuilder.processResponse true compressedResponse = exBuilder.processResponse true (compressedResponse ++ [0, 0, 41, 4, 208, 0, 0, 0, 0, 0, 0, 1, 2, 3]) ∧
    exBuilder.processResponse true compressedResponse = (⟨writeRR exTxt' 300, 300, [], 0, 1⟩, .ok []) := by
  refine ⟨by decide +kernel, by decide +kernel, by decide +kernel, by decide +kernel⟩

/-- **C40 is false** in that RFC 6891 6.1.3 makes the first octet of the TTL of an OPT record the upper octet of the RCODE: every response that is accepted is
also accepted with an OPT record after it that says that there was an error. Here that is BADVERS (16); the response announces one additional record, and is accepted. -/
theorem C40_fails_extended_rcode : ∃ b',
    exBuilder.processResponse true (compressedResponse ++ ([0, 0, 41, 4, 208] ++ [1] ++ [0, 0x80, 0, 0, 0])) = (b', .ok []) ∧
    b'.finish = some (writeRR exTxt' 300, 300) :=
  ⟨⟨writeRR exTxt' 300, 300, [], 0, 1⟩, by decide +kernel, by decide +kernel⟩

end Dnssec.Props
