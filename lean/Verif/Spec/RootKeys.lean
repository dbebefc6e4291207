import Verif.Spec.Rollover

/-! # Specification for C106: the keys of the root over time (RFC 7958, RFC 5011) -/

namespace Dnssec.Spec

open Dnssec

/-- A trust anchor as IANA publishes it (RFC 7958): a DS record with the time from which, and possibly the time until which, it is valid. -/
structure PublishedAnchor where
  ds : DS
  validFrom : Nat
  validUntil : Option Nat

/-- https://data.iana.org/root-anchors/root-anchors.xml, with times in seconds since 1970: the key signing keys of 2010 (valid from
2010-07-15 until 2019-01-11), 2017 (from 2017-02-02) and 2024 (from 2024-07-18). -/
def rootAnchorsXml : List PublishedAnchor :=
  [⟨⟨rootName, 19036, 8, 2, unhex (ascii "49AAC11D7B6F6446702E54A1607371607A1A41855200FD2CE1CDDE32F24E8FB5")⟩, 1279152000, some 1547164800⟩,
   ⟨⟨rootName, 20326, 8, 2, unhex (ascii "E06D44B80B8F1D39A95C0B0D7C65D08458E880409BBC683457104237C7F8EC8D")⟩, 1485993600, none⟩,
   ⟨⟨rootName, 38696, 8, 2, unhex (ascii "683D2D0ACB8C9B712A1948B27F741219298D0A450D612C483AF444A4C0FB2B16")⟩, 1721260800, none⟩]

/-- At the time `t`, this key of the root is one that IANA publishes an anchor for. -/
def PublishedAt (p : Platform) (t : Nat) (k : DnsKey) : Prop :=
  ∃ a ∈ rootAnchorsXml, a.validFrom ≤ t ∧ (∀ u, a.validUntil = some u → t < u) ∧ Vouches p a.ds k

end Dnssec.Spec
