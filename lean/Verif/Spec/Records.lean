import Verif.Spec.Wire

/-! # Specification of canonical RDATA (RFC 4034 6.2) and of type numbers -/

namespace Dnssec.Spec

open Dnssec

/-- The IANA numbers of the types of the records. -/
def typeNumber : RR → Nat
  | .a _ => 1
  | .ns _ => 2
  | .cname _ => 5
  | .txt _ => 16
  | .aaaa _ => 28
  | .dname _ => 39
  | .ds _ => 43
  | .rrsig _ => 46
  | .nsec _ => 47
  | .dnskey _ => 48
  | .nsec3 _ => 50
  | .tlsa _ => 52

/-- The RDATA, of the type with this number, is in the form in which this crate writes it. For A, AAAA, DS, DNSKEY and TLSA that is always
so. Names have to be in lower case, made of printable characters and not followed by anything else. The strings of a TXT record
have to be 255 bytes long except the last. Type bitmaps have to be canonical. -/
inductive CanonicalRData : Nat → Bytes → Prop
  | any (ty : Nat) (data : Bytes) : ty ∈ [1, 28, 43, 48, 52] → CanonicalRData ty data
  | name (ty : Nat) (ls : List Bytes) : ty ∈ [2, 5, 39] → (∀ l ∈ ls, Label l) → CanonicalRData ty (wire ls)
  | txt (full : List Bytes) (last : Bytes) : (∀ s ∈ full, s.length = 255) → 1 ≤ last.length → last.length ≤ 255 →
      CanonicalRData 16 (charStrings (full ++ [last]))
  | emptyTxt : CanonicalRData 16 (charStrings [[]])
  | rrsig (fixed : Bytes) (ls : List Bytes) (signature : Bytes) : fixed.length = 18 → (∀ l ∈ ls, Label l) →
      CanonicalRData 46 (fixed ++ wire ls ++ signature)
  | nsec (ls : List Bytes) (ws : List (Nat × Bytes)) : (∀ l ∈ ls, Label l) → CanonicalWindows ws →
      CanonicalRData 47 (wire ls ++ windows ws)
  | nsec3 (fixed salt hash : Bytes) (ws : List (Nat × Bytes)) : fixed.length = 4 → salt.length ≤ 255 → hash.length ≤ 255 →
      CanonicalWindows ws → CanonicalRData 50 (fixed ++ charStrings [salt] ++ charStrings [hash] ++ windows ws)

end Dnssec.Spec
