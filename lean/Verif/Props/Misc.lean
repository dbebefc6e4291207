import Verif.Proofs.Misc
import Verif.Proofs.Base32
import Verif.Proofs.Decide

/-! # C14-C18: key tag, base32hex, RSA keys, canonical name order, times -/

namespace Dnssec.Props

open Dnssec Spec

/-! ## C14 -/

/-- **C14.** `key_tag()` is the RFC 4034 Appendix B key tag of the wire RDATA. -/
theorem C14_key_tag (k : DnsKey) : k.computeKeyTag.toNat = keyTag (rdata (.dnskey k)) := keyTag_eq k

/-- **C14.** All partial sums of the accumulation stay below 2^32 (in a debug build an overflow would panic): the sum over
the RDATA plus the final carry fits. -/
theorem C14_no_overflow (k : DnsKey) (h : k.pubkey.length ≤ 65535) :
    keyTagSum (rdata (.dnskey k)) + 65535 < 2 ^ 32 := by
  have hb := keyTagSum_le k.pubkey
  have h1 := k.flags.toNat_lt
  have h2 := k.protocol.toNat_lt
  have h3 := k.alg.toNat_lt
  rw [rdata_keyTagSum]
  omega

/-- The tag of a small key, by the code and by the specification. -/
example : (⟨⟨ascii "."⟩, 257, 3, 8, [1, 3, 0x4A, 0x5A]⟩ : DnsKey).computeKeyTag = 20326 ∧
    keyTag [1, 1, 3, 8, 1, 3, 0x4A, 0x5A] = 20326 := by decide

/-! ## C15 -/

/-- **C15.** The encoder used by the tests (and below as specification) is RFC 4648 base32hex. -/
theorem C15_encode_is_rfc4648 (d : Bytes) : Base32.encode d = base32hex d := Base32.encode_rfc _ d rfl

/-- **C15.** `decode(s) = Ok(d)` exactly when `s` in upper case is the base32hex encoding of `d`. -/
theorem C15_decode_iff (s d : Bytes) : Base32.decode s = some d ↔ s.map toUpper = base32hex d := by
  exact Base32.decode_iff_hex s d

/-- **C15.** Decoding inverts encoding. -/
theorem C15_round_trip (d : Bytes) : Base32.decode (Base32.encode d) = some d := by
  rw [Base32.decode_iff _ _ d rfl]
  have := C15_encode_is_rfc4648 d
  rw [this]
  unfold base32hex
  simp only [List.map_map]
  exact List.map_congr_left (fun v _ => Base32.upperByte_hexChar v)

/-- RFC 4648 section 10: `BASE32-HEX("foobar") = "CPNMUOJ1E8"`; decoding ignores case; a non-zero trailing bit is rejected. -/
example : Base32.encode (ascii "foobar") = ascii "CPNMUOJ1E8" ∧ base32hex (ascii "foobar") = ascii "CPNMUOJ1E8" ∧
    Base32.decode (ascii "cpnmuoj1e8") = some (ascii "foobar") ∧ Base32.decode (ascii "CPNMUOJ1E9") = none := by
  decide +kernel

/-! ## C16 -/

/-- **C16.** The split succeeds exactly on RFC 3110 keys of more than three bytes with a non-empty modulus, and gives
exactly that modulus and exponent. -/
theorem C16_split_iff (key n e : Bytes) : bytesToRsaPk key = some (n, e) ↔ RsaKey key e n ∧ n ≠ [] ∧ 3 < key.length :=
  bytesToRsaPk_iff key n e

/-- **C16.** It fails exactly when the key is at most three bytes or the announced exponent leaves no modulus. -/
theorem C16_fails_iff (key : Bytes) : bytesToRsaPk key = none ↔
    key.length ≤ 3 ∨ ∃ b0 b1 b2 rest, key = b0 :: b1 :: b2 :: rest ∧
      key.length ≤ (if b0 = 0 then 3 + (b1.toNat * 256 + b2.toNat) else 1 + b0.toNat) := by
  match key with
  | [] => simp [bytesToRsaPk]
  | [_] => simp [bytesToRsaPk]
  | [_, _] => simp [bytesToRsaPk]
  | [_, _, _] => simp [bytesToRsaPk]
  | b0 :: b1 :: b2 :: b3 :: r =>
    have hor := or_shl8 b1.toNat b2.toNat b2.toNat_lt
    unfold bytesToRsaPk
    simp only [hor]
    constructor
    · intro h
      refine Or.inr ⟨b0, b1, b2, b3 :: r, rfl, ?_⟩
      by_cases h0 : b0 = 0
      · simp only [h0, if_true] at h ⊢
        split at h
        · assumption
        · simp at h
      · simp only [h0, if_false] at h ⊢
        split at h
        · assumption
        · simp at h
    · rintro (h | ⟨a0, a1, a2, rest, e, h⟩)
      · simp at h
      · simp only [List.cons.injEq] at e
        obtain ⟨rfl, rfl, rfl, rfl⟩ := e
        by_cases h0 : b0 = 0
        · simp only [h0, if_true] at h ⊢
          rw [if_pos h]
        · simp only [h0, if_false] at h ⊢
          rw [if_pos h]

/-- The usual key with exponent 65537. -/
example : bytesToRsaPk [3, 1, 0, 1, 0xAB, 0xCD] = some ([0xAB, 0xCD], [1, 0, 1]) ∧
    bytesToRsaPk [0, 0, 2, 1, 1, 9] = some ([9], [1, 1]) ∧ bytesToRsaPk [5, 1, 0, 1] = none := by decide

/-! ## C17 -/

/-- **C17.** On names with labels the order is RFC 4034 6.1. -/
theorem C17_canonical (a b : Name) (as bs : List Bytes) (ha : HasLabels a as) (hb : HasLabels b bs) :
    (nsecOrd a.bytes b.bytes = .lt ↔ CanonicalLt as bs) ∧ (nsecOrd a.bytes b.bytes = .eq ↔ as = bs) ∧
    (nsecOrd a.bytes b.bytes = .gt ↔ CanonicalLt bs as) := by
  rw [ha.bytes, hb.bytes]
  refine ⟨nsecOrd_lt_iff ha.labels hb.labels, ?_, ?_⟩
  · rw [nsecOrd_eq_iff, lower_text ha.labels, lower_text hb.labels]
    exact ⟨text_injective ha.labels hb.labels, fun h => by rw [h]⟩
  · rw [← nsecOrd_lt_iff hb.labels ha.labels, nsecOrd_swap (text bs)]
    cases nsecOrd (text bs) (text as) <;> simp

/-- **C17.** The order on texts used in the specification of denials (`TextLt`) is the canonical order of the labels, and `nsec_ord`
decides it for all texts. -/
theorem C17_texts (a b : Bytes) : (nsecOrd a b = .lt ↔ TextLt a b) ∧
    ∀ as bs, HasLabels ⟨a⟩ as → HasLabels ⟨b⟩ bs → (TextLt a b ↔ CanonicalLt as bs) :=
  ⟨nsecOrd_lt_text a b, fun as bs ha hb => by rw [← nsecOrd_lt_text]; exact (C17_canonical ⟨a⟩ ⟨b⟩ as bs ha hb).1⟩

/-- **C17.** On arbitrary texts it is a total order in which exactly the texts equal up to case are equal. -/
theorem C17_total_order (a b c : Bytes) :
    (nsecOrd a b = .eq ↔ a.map foldCase = b.map foldCase) ∧ nsecOrd b a = (nsecOrd a b).swap ∧
    (nsecOrd a b ≠ .gt → nsecOrd b c ≠ .gt → nsecOrd a c ≠ .gt) := by
  refine ⟨?_, nsecOrd_swap a b, nsecOrd_trans⟩
  rw [nsecOrd_eq_iff, lower_eq_fold, lower_eq_fold]

/-- RFC 4034 6.1's example, in part: `example < a.example < yljkjljk.a.example < Z.a.example < z.example`. -/
example : nsecOrd (ascii "example.") (ascii "a.example.") = .lt ∧
    nsecOrd (ascii "a.example.") (ascii "yljkjljk.a.example.") = .lt ∧
    nsecOrd (ascii "yljkjljk.a.example.") (ascii "Z.a.example.") = .lt ∧
    nsecOrd (ascii "Z.a.example.") (ascii "z.example.") = .lt ∧
    HasLabels ⟨ascii "a.example."⟩ [ascii "a", ascii "example"] := by decide

/-! ## C18 -/

/-- The 1997 cutoff in seconds. -/
abbrev cutoff : Nat := 60 * 60 * 24 * 365 * 27

/-- **C18.** Times from the cutoff on are resolved to the unique congruent instant in the window.
Missing: times below the cutoff, for which the property is false. -/
theorem C18_resolve_partial (t : UInt32) (h : cutoff ≤ t.toNat) :
    cutoff ≤ resolveTime t ∧ resolveTime t < cutoff + 2 ^ 32 ∧ resolveTime t % 2 ^ 32 = t.toNat ∧
    ∀ T, cutoff ≤ T → T < cutoff + 2 ^ 32 → T % 2 ^ 32 = t.toNat → T = resolveTime t := by
  have := t.toNat_lt
  unfold resolveTime
  rw [if_neg (by simpa using h)]
  refine ⟨h, by omega, by omega, ?_⟩
  intro T h1 h2 h3
  omega

/-- **C18 is false** below the cutoff: the result is always one second before the right instant (`u32::MAX` is added instead
of 2^32). -/
theorem C18_off_by_one (t : UInt32) (h : t.toNat < cutoff) :
    ∀ T, cutoff ≤ T → T < cutoff + 2 ^ 32 → T % 2 ^ 32 = t.toNat → resolveTime t + 1 = T := by
  intro T h1 h2 h3
  unfold resolveTime
  rw [if_pos (by simpa using h)]
  have : cutoff = 851472000 := rfl
  omega

/-- **C18.** Order is preserved in the window, but not strictly: 2^32 - 1 and 0 (the next second) are resolved to the same
instant. -/
theorem C18_monotone_partial (s t : UInt32) (T S : Nat) (hT : cutoff ≤ T ∧ T < cutoff + 2 ^ 32 ∧ T % 2 ^ 32 = t.toNat)
    (hS : cutoff ≤ S ∧ S < cutoff + 2 ^ 32 ∧ S % 2 ^ 32 = s.toNat) (h : S ≤ T) : resolveTime s ≤ resolveTime t := by
  have hc : cutoff = 851472000 := rfl
  have := s.toNat_lt
  have := t.toNat_lt
  unfold resolveTime
  have : (60*60*24*365*27 : Nat) = 851472000 := rfl
  split <;> split <;> omega

theorem C18_not_strict : resolveTime 4294967295 = resolveTime 0 := by decide

example : resolveTime 1700000000 = 1700000000 ∧ cutoff ≤ (1700000000 : UInt32).toNat := by decide

end Dnssec.Props
