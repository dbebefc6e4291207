import Verif.Spec.Server

/-! # Specification of what a rejected response leaves behind (C44, C45, C46) -/

namespace Dnssec.Spec

open Dnssec

/-- The message is a response with an acceptable header, with these numbers of records in the answer and authority sections, which
start at `body`. -/
def GoodHeader (resp : Bytes) (answers authorities : Nat) (body : Bytes) : Prop :=
  ∃ flags an ns additional qname qtype qclass, IsMessage resp 0 flags 1 an ns additional qname qtype qclass body ∧
    (flagsOf flags).qr = true ∧ (flagsOf flags).opcode = 0 ∧ (flagsOf flags).tc = false ∧ (flagsOf flags).ad = true ∧
    ((flagsOf flags).rcode = 0 ∨ (flagsOf flags).rcode = 8) ∧ 1 ≤ an.toNat ∧ an.toNat = answers ∧ ns.toNat = authorities

/-- No record can be read here (and the attempt does not panic). -/
def Unreadable (dbg : Bool) (resp inp : Bytes) : Prop := (∀ r rest, ¬ ReadsRecord dbg resp inp r rest) ∧ ¬ RecordPanics dbg resp inp

/-- The records of an unacceptable response before the place where it cannot be read: none if this is in the header, otherwise those of
the answer section and the denial records of the authority section before it. -/
inductive Leaves (dbg : Bool) (resp : Bytes) : List (RR × UInt32) → Prop
  | header : (¬ ∃ an ns body, GoodHeader resp an ns body) → Leaves dbg resp []
  | answer {an ns k : Nat} {body at_ : Bytes} {recs : List (RR × UInt32)} : GoodHeader resp an ns body → k < an →
      Records dbg resp k body recs at_ → Unreadable dbg resp at_ → Leaves dbg resp recs
  | authority {an ns k : Nat} {body mid at_ : Bytes} {ans auth : List (RR × UInt32)} : GoodHeader resp an ns body →
      Records dbg resp an body ans mid → k < ns → Records dbg resp k mid auth at_ → Unreadable dbg resp at_ →
      Leaves dbg resp (ans ++ auth.filter fun r => denialRecord r.1)

/-- A history of calls of `process_response`: the responses, each with whether it was accepted, and the builder. -/
inductive History (dbg : Bool) (name : Name) (ty : UInt16) : List (Bytes × Bool) → ProofBuilder → Prop
  | new : History dbg name ty [] (ProofBuilder.new name ty).1
  | accept {log : List (Bytes × Bool)} {b b' : ProofBuilder} {resp : Bytes} {more : List Bytes} : History dbg name ty log b →
      b.processResponse dbg resp = (b', .ok more) → History dbg name ty (log ++ [(resp, true)]) b'
  | reject {log : List (Bytes × Bool)} {b b' : ProofBuilder} {resp : Bytes} : History dbg name ty log b →
      b.processResponse dbg resp = (b', .err ()) → History dbg name ty (log ++ [(resp, false)]) b'

/-- What each response of a history puts into the proof, in order: an accepted one what it contributes, a rejected one what it leaves
behind. -/
inductive Puts (dbg : Bool) : List (Bytes × Bool) → List (List (RR × UInt32)) → Prop
  | nil : Puts dbg [] []
  | accepted {log : List (Bytes × Bool)} {recss : List (List (RR × UInt32))} {resp : Bytes} {recs : List (RR × UInt32)} :
      Puts dbg log recss → Contributes dbg resp recs → Puts dbg (log ++ [(resp, true)]) (recss ++ [recs])
  | rejected {log : List (Bytes × Bool)} {recss : List (List (RR × UInt32))} {resp : Bytes} {recs : List (RR × UInt32)} :
      Puts dbg log recss → Leaves dbg resp recs → Puts dbg (log ++ [(resp, false)]) (recss ++ [recs])

end Dnssec.Spec
