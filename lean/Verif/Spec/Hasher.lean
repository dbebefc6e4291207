import Verif.Model.Hasher
import Verif.Spec.Validation

/-!
# Specification of the hash wrapper
-/

namespace Dnssec.Spec

/-- The engine computes the hash function `H` of the concatenation of what it is given, however that is cut into pieces. -/
def Computes (e : Engine) (H : Bytes → Bytes) : Prop :=
  ∀ pieces : List Bytes, e.digest (pieces.foldl e.input e.start) = H pieces.flatten

/-- A hash that works on blocks of `size` bytes, like those of the SHA family: whole blocks are absorbed as they fill up, the
length and the rest are absorbed at the end. -/
def blockEngine (size : Nat) (compress : Bytes → Bytes → Bytes) (iv : Bytes) (pad : Nat → Bytes → Bytes) : Engine where
  State := Bytes × Bytes × Nat
  start := (iv, [], 0)
  input := fun s buf => buf.foldl (fun (h, rest, n) b =>
    if rest.length + 1 = size then (compress h (rest ++ [b]), [], n + 1) else (h, rest ++ [b], n + 1)) s
  digest := fun (h, rest, n) => compress h (pad n rest)

end Dnssec.Spec
