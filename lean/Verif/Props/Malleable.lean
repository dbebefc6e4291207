import Verif.Proofs.Malleable
import Verif.Model.Wasm

/-! # C99: TTLs, letter case and the cutting of texts in a proof -/

namespace Dnssec.Props

open Dnssec Spec

/-- **C99.** Two streams of the same records up to TTLs, the case of letters in names and the cutting of texts are parsed with the same
result, whatever it is: the same records, a rejection, or a panic. -/
theorem C99_parse (dbg : Bool) (a b : Bytes) (h : SameRecords a b) : parseRRStream dbg a = parseRRStream dbg b :=
  parseRRStream_same h

/-- **C99.** And so they are verified with the same result: the same records, times and TTL, or the same error. -/
theorem C99_verify (dbg : Bool) (p : Platform) (fuel : Nat) (a b : Bytes) (h : SameRecords a b) :
    verifyByteStream dbg p fuel a = verifyByteStream dbg p fuel b := by
  unfold verifyByteStream
  rw [C99_parse dbg a b h]

/-- A TXT record and a CNAME record of `t.` and `A.t.`. -/
def plainPair : Bytes :=
  wire [[116]] ++ (be16 16 ++ (be16 1 ++ (be32 300 ++ (be16 4 ++ ([3, 1, 2, 3] ++
    (wire [[65], [116]] ++ (be16 5 ++ (be16 1 ++ (be32 7 ++ (be16 3 ++ ([1, 116, 0] ++ [])))))))))))

/-- The same with other TTLs and letter case, and with the text in two strings. -/
def otherPair : Bytes :=
  wire [[84]] ++ (be16 16 ++ (be16 1 ++ (be32 0 ++ (be16 5 ++ ([1, 1, 2, 2, 3] ++
    (wire [[97], [84]] ++ (be16 5 ++ (be16 1 ++ (be32 90000 ++ (be16 3 ++ ([1, 84, 0] ++ [])))))))))))

/-- The hypothesis is met by these two streams, and they are accepted. -/
example : SameRecords plainPair otherPair ∧ plainPair ≠ otherPair ∧
    parseRRStream true plainPair = .ok [.txt ⟨⟨ascii "t."⟩, [1, 2, 3]⟩, .cname ⟨⟨ascii "a.t."⟩, ⟨ascii "t."⟩⟩] := by
  refine ⟨?_, by decide, by decide +kernel⟩
  refine .record _ _ 16 1 300 0 4 5 _ _ _ _ ⟨by decide, by decide⟩ rfl rfl ?_ ?_
  · exact .txt [[1, 2, 3]] [[1], [2, 3]] rfl (by decide) (by decide) rfl
  · refine .record _ _ 5 1 7 90000 3 3 _ _ _ _ ⟨by decide, by decide⟩ rfl rfl ?_ (.same [])
    exact .name [] [[116]] [[84]] [] rfl ⟨by decide, by decide⟩

end Dnssec.Props
