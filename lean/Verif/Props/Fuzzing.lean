import Verif.Proofs.Fuzzing
import Verif.Props.Debug
import Verif.Props.Server
import Verif.Props.RealRoot

/-! # C82: the fuzz targets -/

namespace Dnssec.Props

open Dnssec Spec Conformance

variable {dbg : Bool} {p : Platform}

/-! ## The assertions in base32 -/

/-- **C82.** The assertions on the capacities of vectors in `base32` hold for every input, and however a vector grows: the space set aside
is never exceeded. The results are those of the other builds. -/
theorem C82_base32_assertions (grow : Nat → Nat) (data : Bytes) :
    Base32.encodeF grow data = .ok (Base32.encode data) ∧
    Base32.decodeF grow data = match Base32.decode data with | some d => .ok d | none => .err () :=
  ⟨Base32.encodeF_eq grow data, Base32.decodeF_eq grow data⟩

/-- The assertions are not empty: with a reservation of one chunk less they would fail. -/
example : (Base32.decodeLoopF (· * 2) (Base32.chunks 8 10 (ascii "CPNMUOJ1E8")) (.withCapacity 5)).map (·.cap) = some 10 ∧
    (Base32.decodeLoopF (· * 2) (Base32.chunks 8 10 (ascii "CPNMUOJ1E8")) (.withCapacity 10)).map (·.cap) = some 10 ∧
    (Base32.decodeLoopF (· + 64) (Base32.chunks 8 10 (ascii "CPNMUOJ1E8")) (.withCapacity 5)).map (·.cap) = some 69 := by decide +kernel

/-! ## The shortcut for signatures -/

/-- **C82.** The fuzzing build is the normal one with another cryptographic library, which accepts all signatures that start with a 1. So
everything that holds for all libraries, as the theorems on `verify_rr_stream` do, holds of the code being fuzzed. -/
theorem C82_signatures (sig : RRSig) (keys : List DnsKey) (records : List RR) :
    verifyRrsigF p sig keys records = verifyRrsig (laxPlatform p) sig keys records := verifyRrsigF_eq p sig keys records

/-- **C82.** The fuzzing build accepts an RRSIG iff the normal build does, or the signature starts with a 1 and there is some
cryptographic library with which the normal build would accept it. -/
theorem C82_signatures_iff (sig : RRSig) (keys : List DnsKey) (records : List RR) :
    verifyRrsigF p sig keys records = .ok () ↔
      verifyRrsig p sig keys records = .ok () ∨
      (sig.signature.head? = some 1 ∧ ∃ p', verifyRrsig p' sig keys records = .ok ()) := by
  rw [verifyRrsigF_eq]
  constructor
  · intro h
    by_cases hs : sig.signature.head? = some 1
    · exact Or.inr ⟨hs, _, h⟩
    · left
      have hb : (sig.signature.head? == some 1) = false := by simpa using hs
      rw [← h]
      unfold verifyRrsig
      split
      · rfl
      · clear h
        induction keys with
        | nil => rfl
        | cons k ks ih =>
          rw [verifyKeysLoop, verifyKeysLoop, ih]
          split
          · cases signedData sig records with
            | none => rfl
            | some msg =>
              simp only [checkSig, laxPlatform, hb, Bool.or_false]
          · rfl
  · rintro (h | ⟨hs, p', h⟩)
    · exact verifyRrsig_lax (p' := p) (Or.inl h)
    · exact verifyRrsig_lax (Or.inr ⟨hs, h⟩)

/-- A signature accepted by the shortcut only, one that does not start with a 1, and one of an unknown algorithm. -/
example : let no : Platform := testPlatform wPlatform.sha1 wPlatform.sha256 (fun _ _ _ _ => false)
    let keys : List DnsKey := [⟨⟨ascii "c."⟩, 257, 3, 8, [1, 3, 0x4A, 0x5A]⟩]
    let rs := [wA "c."]
    verifyRrsigF no ⟨⟨ascii "c."⟩, 1, 8, 1, 3600, 2000000000, 1000000000, 20326, ⟨ascii "c."⟩, [1, 2]⟩ keys rs = .ok () ∧
    verifyRrsig no ⟨⟨ascii "c."⟩, 1, 8, 1, 3600, 2000000000, 1000000000, 20326, ⟨ascii "c."⟩, [1, 2]⟩ keys rs = .err .invalid ∧
    verifyRrsigF no ⟨⟨ascii "c."⟩, 1, 8, 1, 3600, 2000000000, 1000000000, 20326, ⟨ascii "c."⟩, [2, 1]⟩ keys rs = .err .invalid := by
  decide +kernel

/-! ## The targets -/

/-- **C82.** `fuzz_response` panics exactly on the messages of C73. Missing: those messages, for which "never panics" is false. -/
theorem C82_response_partial (response : Bytes) : fuzzResponse dbg response = .panic ↔ MessagePanics dbg response := by
  rw [← handleResponse_panic_iff (proof := []) (names := []), fuzzResponse]
  cases (handleResponse dbg response [] []).2 <;> simp

/-- **C82.** `fuzz_proof_builder` returns for every input, after at most one round for every two bytes. -/
theorem C82_builder_returns (stream : Bytes) : ∃ r, fuzzProofBuilder dbg (stream.length / 2 + 1) stream = some r := by
  have := fuzzLoop_returns (dbg := dbg) (stream.length / 2 + 1) (ProofBuilder.new ⟨ascii "example.com."⟩ 16).1 stream (by omega)
  cases h : fuzzProofBuilder dbg (stream.length / 2 + 1) stream with
  | none => exact absurd h this
  | some r => exact ⟨r, rfl⟩

/-- **C82.** It panics iff the input consists of length-prefixed messages, accepted or rejected, and then one on which `process_response`
panics while a response is awaited. Missing: those inputs. -/
theorem C82_builder_panics_iff_partial (stream : Bytes) :
    fuzzProofBuilder dbg (stream.length / 2 + 1) stream = some .panic ↔
      ∃ ms b m rest, Feeds dbg (ProofBuilder.new ⟨ascii "example.com."⟩ 16).1 ms b ∧ b.awaiting = true ∧ MessagePanics dbg m ∧
        stream = (ms.map frame).flatten ++ (frame m ++ rest) ∧ ∀ x ∈ m :: ms, x.length ≤ 65535 :=
  fuzzLoop_panic_iff _ _ _ (by omega)

/-- **C82 is false** for these two targets, in release and debug builds: the response of C73, alone and after a rejected message. -/
theorem C82_fails_nsec_window (dbg : Bool) : fuzzResponse dbg panickingResponse = .panic ∧
    ∃ fuel, fuzzProofBuilder dbg fuel (frame [0, 0, 1] ++ (frame panickingResponse ++ [])) = some .panic := by
  refine ⟨C82_response_partial _ |>.mpr (panickingResponse_panics dbg), _, (C82_builder_panics_iff_partial _).mpr
    ⟨[[0, 0, 1]], (ProofBuilder.new ⟨ascii "example.com."⟩ 16).1, panickingResponse, [], ?_, by decide, panickingResponse_panics dbg, rfl, ?_⟩⟩
  · exact .cons (by decide) (b' := (ProofBuilder.new ⟨ascii "example.com."⟩ 16).1) (r := .err ()) (by cases dbg <;> decide) (by simp) (.nil _)
  · decide

/-- **C82.** In a release build, verification of what was parsed does not panic with the shortcut either. Missing: that it returns, which
is false (below), and debug builds (C68). -/
theorem C82_validate_no_panic_partial {inp : List RR} (fuel : Nat) : verifyRRStream false (laxPlatform p) fuel inp ≠ some .panic :=
  C68_release_never_panics

/-- **C82 is false** for the target `parse_stream_validate`: it never returns on the bytes of the DNSKEY set of the root zone. -/
theorem C82_fails_hangs : ∃ bytes inp, parseRRStream false bytes = .ok inp ∧
    ∀ dbg fuel, verifyRRStream dbg (laxPlatform realPlatform) fuel inp = none := by
  refine ⟨rootDnskey.flatMap (writeRR · 172800), rootDnskey, C31_fails_real_root_bytes.1, fun dbg fuel => ?_⟩
  refine C31_diverges (inOrder_of_check (zs := [rootName]) (by decide +kernel) (by decide +kernel)) (Or.inl ?_) fuel
  rintro ⟨s, hs, ht⟩
  have : ∀ s ∈ sigsBy rootDnskey rootName, s.ty ≠ 43 := by decide +kernel
  exact this s hs.1 ht

end Dnssec.Props
