import Verif.Spec.World
import Verif.Spec.Secure

/-! # Specification for C120: what a resolver is asked -/

set_option autoImplicit false

namespace Dnssec.Spec

open Dnssec

/-- The queries for the keys of a zone and, unless it is the root, for its DS set. -/
def zoneQueries (z : Name) : List Bytes :=
  queryMessage (nameWire z.bytes) 48 :: if z = rootName then [] else [queryMessage (nameWire z.bytes) 43]

/-- All RRSIGs are made by a zone the owner name is in, label by label. (That a world is correctly signed says so for the texts of the names only.) -/
def World.SignedWithin (w : World) : Prop := ∀ s ∈ w.sets, ∀ sig ∈ s.sigs, NameWithin s.owner sig.keyName

end Dnssec.Spec
