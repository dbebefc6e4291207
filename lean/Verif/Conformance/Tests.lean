import Verif.Conformance.Run

/-! # The unit tests of `/repo`, run on the model

Not proofs of properties: they check that the model does what the tests of the code expect of the code, on real records, real signatures
and the real root anchors. Where a test shuffles the records, they are taken in the order given. -/

namespace Dnssec.Conformance

open Dnssec

/-- src/validation.rs:605 -/
theorem root_dnskey : (match verifyDnskeys realPlatform (sigsOf rootDnskey 48) rootHints (keysOf rootDnskey) with
    | .ok s => sigsOf rootDnskey 48 == [s]
    | _ => false) = true := by decide +kernel
/-- src/validation.rs:621, 634 -/
theorem com_dnskey : zoneOk rootDnskey comDnskey = true := by decide +kernel
/-- src/validation.rs:651, 667 -/
theorem ninja_dnskey : zoneOk rootDnskey ninjaDnskey = true := by decide +kernel
/-- src/validation.rs:685, 701 -/
theorem mattcorallo_dnskey : zoneOk comDnskey mattcoralloDnskey = true := by decide +kernel
/-- src/validation.rs:733, 746 -/
theorem bitcoin_ninja_dnskey : zoneOk ninjaDnskey bitcoinNinjaDnskey = true := by decide +kernel
/-- src/validation.rs:898, 912 -/
theorem bitcoin_ninja_nsec_dnskey : zoneOk bitcoinNinjaDnskey bitcoinNinjaNsecDnskey = true := by decide +kernel

/-- src/validation.rs:984-990 `check_txt_record_a` -/
theorem check_txt_record_a :
    sigsOk (sigsOf mattcoralloTxtRecord 16) (keysOf mattcoralloDnskey) (mattcoralloTxtRecord.take 1) = true := by decide +kernel
/-- src/validation.rs:1014-1020 `check_txt_record_b` -/
theorem check_txt_record_b :
    sigsOk (sigsOf bitcoinNinjaTxtRecord 16) (keysOf bitcoinNinjaDnskey) (bitcoinNinjaTxtRecord.take 1) = true := by decide +kernel
/-- src/validation.rs:1022-1028 `check_cname_record` -/
theorem check_cname_record :
    sigsOk (sigsOf bitcoinNinjaCnameRecord 5) (keysOf bitcoinNinjaDnskey) (bitcoinNinjaCnameRecord.take 1) = true := by decide +kernel
/-- src/validation.rs:1072-1087 `check_wildcard_record` -/
theorem check_wildcard_record : (["name", "anoter_name", "multiple.names"].all fun pfx =>
    sigsOk (sigsOf (bitcoinNinjaWildcardRecord pfx) 16) (keysOf bitcoinNinjaDnskey) ((bitcoinNinjaWildcardRecord pfx).take 1)) = true := by
  decide +kernel
/-- A signature over something else is not accepted. -/
theorem check_wrong_record : sigsOk (sigsOf bitcoinNinjaTxtRecord 16) (keysOf bitcoinNinjaDnskey)
    [.txt ⟨⟨ascii "txt_test.dnssec_proof_tests.bitcoin.ninja."⟩, ascii "dnssec_prover_tesu"⟩] = false := by decide +kernel

/-! ### The RFC 9102 example: the trust anchor is one that the code has in tests only -/

/-- src/validation.rs:28-32 -/
def testAnchor : DS := ⟨rootName, 47005, 13, 2, ofNat 32 0x2eb6e9f2480126691594d649a5a613de3052e37861634641bb568746f2ffc4d4⟩

/-- The parsed records. -/
def rfc9102Rrs : List RR := match parseRRStream true rfc9102 with | .ok rrs => rrs | _ => []

def rfc9102Keys (n : String) : List DnsKey := (keysOf rfc9102Rrs).filter fun k => k.name.bytes = ascii n
def rfc9102Sigs (n : String) (ty : UInt16) : List RRSig := (sigsOf rfc9102Rrs ty).filter fun s => s.name.bytes = ascii n
def rfc9102Ds (n : String) : List DS := (dsOf rfc9102Rrs).filter fun s => s.name.bytes = ascii n

/-- src/validation.rs:1219-1235 `rfc9102_parse_test`: the records and the links of the chain. -/
theorem rfc9102_parse_test :
    rfc9102Rrs.length = 18 ∧
    rfc9102Rrs.head? = some (.tlsa ⟨⟨ascii "_443._tcp.www.example.com."⟩, 3, 1, 1,
      ofNat 32 0x8bd1da95272f7fa4ffb24137fc0ed03aae67e5c4d8b3c50734e1050a7920b922⟩) ∧
    sigsOk (rfc9102Sigs "_443._tcp.www.example.com." 52) (rfc9102Keys "example.com.") (rfc9102Rrs.take 1) = true ∧
    (match verifyDnskeys realPlatform (rfc9102Sigs "example.com." 48) (rfc9102Ds "example.com.") (rfc9102Keys "example.com.") with
      | .ok _ => true | _ => false) = true ∧
    sigsOk (rfc9102Sigs "example.com." 43) (rfc9102Keys "com.") ((rfc9102Ds "example.com.").map RR.ds) = true ∧
    (match verifyDnskeys realPlatform (rfc9102Sigs "com." 48) (rfc9102Ds "com.") (rfc9102Keys "com.") with
      | .ok _ => true | _ => false) = true ∧
    sigsOk (rfc9102Sigs "com." 43) (rfc9102Keys ".") ((rfc9102Ds "com.").map RR.ds) = true ∧
    (match verifyDnskeys realPlatform (rfc9102Sigs "." 48) [testAnchor] (rfc9102Keys ".") with
      | .ok _ => true | _ => false) = true := by decide +kernel

/-- With the production anchors it is rejected. -/
theorem rfc9102_production : verifyRRStream true realPlatform 20 rfc9102Rrs = some (.err .invalid) := by decide +kernel

/-! ### Others -/

/-- src/validation.rs:328-339 `rfc4034_sort_test` (`\0` followed by `01` in the seventh string) -/
theorem rfc4034_sort_test :
    let v := [ascii "example.", ascii "a.example.", ascii "yljkjljk.a.example.", ascii "Z.a.example.", ascii "zABC.a.EXAMPLE.",
      ascii "z.example.", 0 :: ascii "01.z.example.", ascii "*.z.example.", 0x7f :: ascii ".z.example."]
    v.Pairwise (fun a b => nsecOrd a b = .lt) := by decide +kernel

/-- src/base32.rs:118-129 `test_encode_decode` -/
theorem test_encode_decode :
    let bytes := (List.range 1280).map fun i => UInt8.ofNat (i % 256 + i / 256)
    Base32.decode (Base32.encode bytes) = some bytes := by decide +kernel

/-- src/validation.rs:831, 858, 871: the strings decoded there. -/
theorem base32_hashes : Base32.decode (ascii "T8QO5GO6M76HBR5Q6T3G6BDR79KBMDSA") = some (ofNat 20 0xea3582c306b1cd15ecba3747032dbb3a68bb378a) ∧
    Base32.decode (ascii "4OKFHSHS41D00EDL0HNPMT7R6IKMJ48H") = some (ofNat 20 0x2628f8f23c205a0039b5046f9b74fb34a9699111) ∧
    Base32.decode (ascii "DD3MT23L63OIHQPIMA5O2NULSVIGIJ3N") = some (ofNat 20 0x6b476e887530f128eb32b28b815fd5e7e5094c77) := by decide +kernel

end Dnssec.Conformance
