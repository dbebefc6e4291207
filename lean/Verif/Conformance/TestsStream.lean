import Verif.Conformance.Tests

/-! # The unit tests of `/repo` that verify a whole stream (src/validation.rs:992-1217), run on the model -/

namespace Dnssec.Conformance

open Dnssec

/-- src/validation.rs:992-1012 `check_single_txt_proof` -/
theorem check_single_txt_proof : run true (rootDnskey ++ comDnskey ++ mattcoralloDnskey ++ mattcoralloTxtRecord) =
    some (.ok ⟨mattcoralloTxtRecord.take 1, 1709047250, 1709359258, 3600⟩) := by decide +kernel

/-- What `check_multi_zone_proof` returns, in the order of the model. -/
def multiZone : List RR := bitcoinNinjaTxtRecord.take 1 ++ bitcoinNinjaCnameRecord.take 1 ++ mattcoralloTxtRecord.take 1

/-- src/validation.rs:1030-1061 `check_multi_zone_proof` -/
theorem check_multi_zone_proof : run true (rootDnskey ++ comDnskey ++ ninjaDnskey ++ mattcoralloDnskey ++ mattcoralloTxtRecord ++
      bitcoinNinjaDnskey ++ bitcoinNinjaTxtRecord ++ bitcoinNinjaCnameRecord) =
    some (.ok ⟨multiZone, 1709047250, 1709359258, 30⟩) := by decide +kernel
/-- src/validation.rs:1048-1061: the order after `sort`. -/
theorem check_multi_zone_sort : sortBy RR.partialCmp multiZone =
    mattcoralloTxtRecord.take 1 ++ bitcoinNinjaTxtRecord.take 1 ++ bitcoinNinjaCnameRecord.take 1 := by decide +kernel
/-- src/validation.rs:1063-1069 -/
theorem check_multi_zone_resolve : resolveName multiZone 3 ⟨ascii "cname_test.dnssec_proof_tests.bitcoin.ninja."⟩ =
    some (.ok (bitcoinNinjaTxtRecord.take 1)) := by decide +kernel

/-- src/validation.rs:1089-1112 `check_wildcard_proof`. The NSEC3 records are in the order a, b, c there. -/
theorem check_wildcard_proof : run true (rootDnskey ++ ninjaDnskey ++ bitcoinNinjaDnskey ++ bitcoinNinjaCnameWildcardRecord.take 2 ++
      (bitcoinNinjaWildcardRecord "asdf").take 2 ++ bitcoinNinjaCnameWildcardRecord.drop 2 ++ (bitcoinNinjaWildcardRecord "asdf").drop 2) =
    some (.ok ⟨bitcoinNinjaCnameWildcardRecord.take 1 ++ (bitcoinNinjaWildcardRecord "asdf").take 1, 1709052741, 1709947337, 30⟩) := by
  decide +kernel
/-- src/validation.rs:1114-1120 -/
theorem check_wildcard_resolve :
    resolveName (bitcoinNinjaCnameWildcardRecord.take 1 ++ (bitcoinNinjaWildcardRecord "asdf").take 1) 3
      ⟨ascii "asdf.wildcard_test.dnssec_proof_tests.bitcoin.ninja."⟩ =
    some (.ok ((bitcoinNinjaWildcardRecord "asdf").take 1)) := by decide +kernel
/-- Without its NSEC3 records the wildcard is rejected. -/
theorem check_wildcard_without_denial : run true (rootDnskey ++ ninjaDnskey ++ bitcoinNinjaDnskey ++
    (bitcoinNinjaWildcardRecord "asdf").take 2) = some (.err .invalid) := by decide +kernel

/-- src/validation.rs:1123-1143 `check_simple_nsec_zone_proof` -/
theorem check_simple_nsec_zone_proof : run true (rootDnskey ++ ninjaDnskey ++ bitcoinNinjaDnskey ++ bitcoinNinjaNsecDnskey ++
      bitcoinNinjaNsecRecord) = some (.ok ⟨bitcoinNinjaNsecRecord.take 1, 1709006400, 1709947337, 30⟩) ∧
    resolveName (bitcoinNinjaNsecRecord.take 1) 3 ⟨ascii "a.nsec_tests.dnssec_proof_tests.bitcoin.ninja."⟩ =
      some (.ok (bitcoinNinjaNsecRecord.take 1)) := by decide +kernel

/-- src/validation.rs:1198-1217 `check_txt_sort_order`, with the records in the order there and in the opposite order. -/
theorem check_txt_sort_order :
    let txts := bitcoinNinjaTxtSortEdgeCasesRecords.take 8
    let sig := bitcoinNinjaTxtSortEdgeCasesRecords.drop 8
    run true (rootDnskey ++ ninjaDnskey ++ bitcoinNinjaDnskey ++ sig ++ txts) = some (.ok ⟨txts, 1709006400, 1709947337, 30⟩) ∧
    run true (rootDnskey ++ ninjaDnskey ++ bitcoinNinjaDnskey ++ sig ++ txts.reverse) =
      some (.ok ⟨txts.reverse, 1709006400, 1709947337, 30⟩) := by decide +kernel

end Dnssec.Conformance
