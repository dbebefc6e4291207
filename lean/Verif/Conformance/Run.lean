import Verif.Conformance.Data

/-! # Running the model on the records of the unit tests -/

namespace Dnssec.Conformance

open Dnssec

/-- `write_rr` all records, `parse_rr_stream`, `verify_rr_stream`. -/
def run (dbg : Bool) (rrs : List RR) : Option (Res VErr Verified) :=
  match parseRRStream dbg (rrs.flatMap (writeRR · 1)) with
  | .ok rrs => verifyRRStream dbg realPlatform 20 rrs
  | _ => some .panic

/-- The records of a kind. -/
def keysOf (rrs : List RR) : List DnsKey := rrs.filterMap fun | .dnskey k => some k | _ => none
def dsOf (rrs : List RR) : List DS := rrs.filterMap fun | .ds d => some d | _ => none
def sigsOf (rrs : List RR) (ty : UInt16) : List RRSig := rrs.filterMap fun | .rrsig s => if s.ty = ty then some s else none | _ => none

/-- `verify_rrsig(&sig, &dnskeys, rrs).unwrap()` for each of the signatures. -/
def sigsOk (sigs : List RRSig) (keys : List DnsKey) (rrs : List RR) : Bool :=
  sigs.length == 1 && sigs.all fun s => verifyRrsig realPlatform s keys rrs = .ok ()

/-- The checks in the functions that make the records: the DS set is signed by the parent's keys, the keys are vouched for by the DS. -/
def zoneOk (parent child : List RR) : Bool :=
  sigsOk (sigsOf child 43) (keysOf parent) ((dsOf child).map RR.ds) &&
  match verifyDnskeys realPlatform (sigsOf child 48) (dsOf child) (keysOf child) with
  | .ok _ => true
  | _ => false

/-- src/validation.rs:1147-1175 `check_proof`, without the writing and parsing of the records (which are done in `run`) -/
def checkProof (pfx : String) (postOverride : Bool) : Bool :=
  let rrs := if postOverride then bitcoinNinjaNsecPostOverrideWildcardRecord pfx else bitcoinNinjaNsecWildcardRecord pfx
  match verifyRRStream true realPlatform 20 (rootDnskey ++ ninjaDnskey ++ bitcoinNinjaDnskey ++ bitcoinNinjaNsecDnskey ++ rrs) with
  | some (.ok v) =>
    resolveName v.verifiedRrs 3 ⟨ascii pfx ++ ascii ".wildcard_test.nsec_tests.dnssec_proof_tests.bitcoin.ninja."⟩ = some (.ok (rrs.take 1))
  | _ => false

end Dnssec.Conformance
