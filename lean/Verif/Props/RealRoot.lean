import Verif.Conformance.Run
import Verif.Props.Termination

/-! # C31 with real data: the DNSKEY set of the root zone -/

namespace Dnssec.Props

open Dnssec Spec Conformance

/-- **C31 is false with real data**: the DNSKEY records of the root zone with their RRSIG, as published (the records of the unit tests),
checked with real SHA-256 and RSA and the real trust anchors, are enough for `verify_rr_stream` to loop forever. -/
theorem C31_fails_real_root (dbg : Bool) (fuel : Nat) : verifyRRStream dbg realPlatform fuel rootDnskey = none := by
  refine C31_diverges (inOrder_of_check (zs := [rootName]) (by decide +kernel) (by decide +kernel)) (Or.inl ?_) fuel
  rintro ⟨s, hs, ht⟩
  have : ∀ s ∈ sigsBy rootDnskey rootName, s.ty ≠ 43 := by decide +kernel
  exact this s hs.1 ht

/-- They are what `parse_rr_stream` makes of the bytes `write_rr` makes of them. -/
theorem C31_fails_real_root_bytes : parseRRStream false (rootDnskey.flatMap (writeRR · 172800)) = .ok rootDnskey ∧
    rootDnskey.map (·.ty) = [48, 48, 46] := by
  decide +kernel

end Dnssec.Props
