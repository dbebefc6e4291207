import Verif.Spec.Validation

/-! # Specification for C62-C66: signature operations, signers, the root -/

namespace Dnssec.Spec

open Dnssec

/-- A question to the signature library: does this signature of this message verify under this key? -/
inductive Question
  | rsaSha256 (n e msg sig : Bytes)
  | rsaSha512 (n e msg sig : Bytes)
  | ecdsaP256 (key msg sig : Bytes)
  | ecdsaP384 (key msg sig : Bytes)
  | ed25519 (key msg sig : Bytes)

/-- The library's answer. -/
def Question.answer (p : Platform) : Question → Bool
  | rsaSha256 n e msg sig => p.rsaSha256 n e msg sig
  | rsaSha512 n e msg sig => p.rsaSha512 n e msg sig
  | ecdsaP256 key msg sig => p.ecdsaP256 key msg sig
  | ecdsaP384 key msg sig => p.ecdsaP384 key msg sig
  | ed25519 key msg sig => p.ed25519 key msg sig

/-- The SHA-256 digests of the two root keys IANA publishes, with their key tags (https://data.iana.org/root-anchors/root-anchors.xml). -/
def ianaRootKeys : List (Nat × Bytes) :=
  [(19036, unhex (ascii "49AAC11D7B6F6446702E54A1607371607A1A41855200FD2CE1CDDE32F24E8FB5")),
   (20326, unhex (ascii "E06D44B80B8F1D39A95C0B0D7C65D08458E880409BBC683457104237C7F8EC8D"))]

/-- RFC 4034 3.1.8.1: the RRSIG RDATA without the signature. -/
def signedHeader (sig : RRSig) : Bytes :=
  be16 sig.ty ++ [sig.alg, sig.labels] ++ be32 sig.origTtl ++ be32 sig.expiration ++ be32 sig.inception ++ be16 sig.keyTag ++
    nameWire sig.keyName.bytes

/-- The owner name of a record in the signed bytes: its own, or `*.` and what follows a dot of it (or just the root). -/
inductive OwnerBytes (sig : RRSig) (r : RR) : Bytes → Prop
  | itself : sig.labels = r.name.labels ∨ r.ty = 47 → OwnerBytes sig r (nameWire r.name.bytes)
  | wildcard (pre suf : Bytes) : sig.labels.toNat < r.name.labels.toNat → r.ty ≠ 47 →
      r.name.bytes = pre ++ 46 :: suf ∨ (suf = [46] ∧ sig.labels = 0) → OwnerBytes sig r ([1, 42] ++ nameWire suf)

/-- The records, in this order, in canonical form with the original TTL; for names of any form. -/
inductive RecordsBytes (sig : RRSig) : List RR → Bytes → Prop
  | nil : RecordsBytes sig [] []
  | cons (r : RR) (rs : List RR) (owner rest : Bytes) : OwnerBytes sig r owner → RecordsBytes sig rs rest →
      RecordsBytes sig (r :: rs)
        (owner ++ be16 r.ty ++ be16 1 ++ be32 sig.origTtl ++ be16 (UInt16.ofNat (rdata r).length) ++ rdata r ++ rest)

end Dnssec.Spec
