import Verif.Conformance.Run

/-! # `check_nsec_wildcard_proof` (src/validation.rs:1145-1196), run on the model

Records up to `override` only verify with the NSEC record before it; `override`, names below it and names after it with neither of the two
that the test uses. -/

namespace Dnssec.Conformance

theorem check_nsec_a : checkProof "a" false = true := by decide +kernel
theorem check_nsec_post_a : checkProof "a" true = false := by decide +kernel
theorem check_nsec_a_b : checkProof "a.b" false = true := by decide +kernel
theorem check_nsec_post_a_b : checkProof "a.b" true = false := by decide +kernel
theorem check_nsec_o : checkProof "o" false = true := by decide +kernel
theorem check_nsec_post_o : checkProof "o" true = false := by decide +kernel
theorem check_nsec_a_o : checkProof "a.o" false = true := by decide +kernel
theorem check_nsec_post_a_o : checkProof "a.o" true = false := by decide +kernel

end Dnssec.Conformance
