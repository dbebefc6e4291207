import Verif.Model.Validation

/-! # Specification for C119: the single steps of verification -/

namespace Dnssec.Spec

open Dnssec

set_option autoImplicit false

/-- One step of `verify_rr_stream` changes what it holds: nothing, the next zone is taken, the validity of the signature over a zone's keys
is noted, or a signature of the input is accepted. -/
inductive HeldStep (dbg : Bool) (inp : List RR) : VState → VState → Prop where
  | none (st : VState) : HeldStep dbg inp st st
  | zone (st : VState) (e : Name × List DS) (rest : List (Name × List DS)) (h : st.pending = e :: rest) :
      HeldStep dbg inp st { st with pending := rest }
  | keys (st : VState) (sig : RRSig) (h : RR.rrsig sig ∈ inp) (ht : sig.ty = 48) : HeldStep dbg inp st (st.note sig)
  | signature (st st' : VState) (sig : RRSig) (h : RR.rrsig sig ∈ inp) (ht : sig.ty ≠ 48)
      (ha : acceptSig dbg inp sig (st.note sig) = .ok st') : HeldStep dbg inp st st'

/-- Each of the states follows from the one before by one step. -/
def Steps (dbg : Bool) (inp : List RR) : List VState → Prop
  | [] => True
  | [_] => True
  | st :: st' :: rest => HeldStep dbg inp st st' ∧ Steps dbg inp (st' :: rest)

end Dnssec.Spec
