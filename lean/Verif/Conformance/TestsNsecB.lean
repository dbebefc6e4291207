import Verif.Conformance.TestsNsecA

/-! # `check_nsec_wildcard_proof` (src/validation.rs:1145-1196), run on the model

Records up to `override` only verify with the NSEC record before it; `override`, names below it and names after it with neither of the two
that the test uses. -/

namespace Dnssec.Conformance

theorem check_nsec_override : checkProof "override" false = false := by decide +kernel
theorem check_nsec_post_override : checkProof "override" true = false := by decide +kernel
theorem check_nsec_b_override : checkProof "b.override" false = false := by decide +kernel
theorem check_nsec_post_b_override : checkProof "b.override" true = false := by decide +kernel
theorem check_nsec_z : checkProof "z" false = false := by decide +kernel
theorem check_nsec_post_z : checkProof "z" true = false := by decide +kernel
theorem check_nsec_a_z : checkProof "a.z" false = false := by decide +kernel
theorem check_nsec_post_a_z : checkProof "a.z" true = false := by decide +kernel

end Dnssec.Conformance
