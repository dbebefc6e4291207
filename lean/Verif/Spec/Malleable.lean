import Verif.Spec.Labels
import Verif.Spec.Records

/-! # Specification of streams that differ only in TTLs, the case of letters in names and the cutting of texts (C99) -/

namespace Dnssec.Spec

open Dnssec

/-- Two sequences of labels (RFC 1035 3.1: of 1 to 63 octets) are equal up to the case of ASCII letters. -/
structure SameLetters (ls ls' : List Bytes) : Prop where
  sizes : ∀ l ∈ ls, l ≠ [] ∧ l.length ≤ 63
  letters : lowerLabels ls = lowerLabels ls'

/-- Where the RDATA of a type has a domain name: at the beginning in NS, CNAME, DNAME and NSEC records, after 18 octets in RRSIG
records. -/
def nameOffset : Nat → Option Nat
  | 2 => some 0
  | 5 => some 0
  | 39 => some 0
  | 46 => some 18
  | 47 => some 0
  | _ => none

/-- Two RDATA of a type are equal up to the case of letters in the domain name in them, if there is one; those of TXT records, up to
where the text is cut into character strings (RFC 1035 3.3.14). -/
inductive SameRData (ty : UInt16) : Bytes → Bytes → Prop
  | same (data : Bytes) : SameRData ty data data
  | name (before : Bytes) (ls ls' : List Bytes) (after : Bytes) : nameOffset ty.toNat = some before.length → SameLetters ls ls' →
      SameRData ty (before ++ (wire ls ++ after)) (before ++ (wire ls' ++ after))
  | txt (ss ss' : List Bytes) : ty = 16 → (∀ s ∈ ss, s.length < 256) → (∀ s ∈ ss', s.length < 256) → ss.flatten = ss'.flatten →
      SameRData ty (charStrings ss) (charStrings ss')

/-- Two streams consist of the same records (RFC 1035 3.2.1: owner name, type, class, TTL, length of the RDATA, RDATA) up to the TTLs,
the case of letters in names and the cutting of the texts of TXT records; what follows them is the same. -/
inductive SameRecords : Bytes → Bytes → Prop
  | same (rest : Bytes) : SameRecords rest rest
  | record (ls ls' : List Bytes) (ty cls : UInt16) (ttl ttl' : UInt32) (len len' : UInt16) (data data' more more' : Bytes) :
      SameLetters ls ls' → len.toNat = data.length → len'.toNat = data'.length → SameRData ty data data' → SameRecords more more' →
      SameRecords (wire ls ++ (be16 ty ++ (be16 cls ++ (be32 ttl ++ (be16 len ++ (data ++ more))))))
        (wire ls' ++ (be16 ty ++ (be16 cls ++ (be32 ttl' ++ (be16 len' ++ (data' ++ more'))))))

end Dnssec.Spec
