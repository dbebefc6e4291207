import Verif.Model.Fuzzing
import Verif.Spec.Server

/-! # Specification of the fuzzing builds -/

namespace Dnssec.Spec

open Dnssec

/-- The cryptographic library with every signature that starts with a 1 accepted as well. -/
def laxPlatform (p : Platform) : Platform where
  sha1 := p.sha1
  sha256 := p.sha256
  rsaSha256 := fun n e msg sig => p.rsaSha256 n e msg sig || sig.head? == some 1
  rsaSha512 := fun n e msg sig => p.rsaSha512 n e msg sig || sig.head? == some 1
  ecdsaP256 := fun k msg sig => p.ecdsaP256 k msg sig || sig.head? == some 1
  ecdsaP384 := fun k msg sig => p.ecdsaP384 k msg sig || sig.head? == some 1
  ed25519 := fun k msg sig => p.ed25519 k msg sig || sig.head? == some 1
  sortNeeds := p.sortNeeds
  sortNeeds_perm := p.sortNeeds_perm
  sortNeeds_sorted := p.sortNeeds_sorted

/-- The builder goes from one state to another by processing the messages, accepted or not, always while it awaits a response and
without panicking. -/
inductive Feeds (dbg : Bool) : ProofBuilder → List Bytes → ProofBuilder → Prop
  | nil (b : ProofBuilder) : Feeds dbg b [] b
  | cons {b b' b'' : ProofBuilder} {m : Bytes} {ms : List Bytes} {r : Res Unit (List Bytes)} : b.awaiting = true →
      b.processResponse dbg m = (b', r) → r ≠ .panic → Feeds dbg b' ms b'' → Feeds dbg b (m :: ms) b''

end Dnssec.Spec
