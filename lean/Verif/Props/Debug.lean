import Verif.Proofs.Debug
import Verif.Props.Validation

/-! # C68: verifying never panics, and debug builds do what release builds do

`verifyRRStreamD` and `writeRRD` are the functions with the checks of debug builds: every sum overflows into a panic and every
`debug_assert` is evaluated. `verifyRRStream false` and `writeRR` are the functions of release builds. -/

namespace Dnssec.Props

open Dnssec Spec

variable {dbg : Bool} {p : Platform} {inp : List RR} {fuel : Nat}

/-- **C68.** In a release build `verify_rr_stream` never panics, whatever the input. -/
theorem C68_release_never_panics : verifyRRStream false p fuel inp ≠ some .panic := verifyRRStream_release fuel

/-- The hypothesis of the next theorems about RRSIGs: one that claims 255 labels covers NSEC records or at least one record. -/
def No255Empty (inp : List RR) : Prop :=
  ∀ s, RR.rrsig s ∈ inp → s.labels = 255 → s.ty = 47 ∨ ∃ r ∈ inp, r.name = s.name ∧ r.ty = s.ty

/-- **C68.** If every name is a proper name, no record is larger than a record can be, and no RRSIG claims 255 labels for a
record set that is not there, debug and release builds of `verify_rr_stream` behave the same. Missing: RRSIGs that claim 255
labels for no records, see `C68_fails_for_255_labels`. -/
theorem C68_debug_as_release_partial (hname : ∀ r ∈ inp, Obtainable r.name) (hsize : ∀ r ∈ inp, (rdata r).length ≤ 65535)
    (hlabels : No255Empty inp) (fuel : Nat) : verifyRRStreamD p fuel inp = verifyRRStream false p fuel inp :=
  verifyRRStreamD_eq ⟨hsize, fun r hr => (hname r hr).dot_mem, hlabels⟩ fuel

/-- **C68.** Whatever bytes were parsed, the debug build of `verify_rr_stream` panics only if a record with 255 labels for no
records is among the records; otherwise it returns what the release build returns. -/
theorem C68_parsed_partial {bs : Bytes} (hp : parseRRStream dbg bs = .ok inp) (hlabels : No255Empty inp) (fuel : Nat) :
    verifyRRStreamD p fuel inp = verifyRRStream false p fuel inp ∧ verifyRRStreamD p fuel inp ≠ some .panic := by
  have h := C68_debug_as_release_partial (p := p) (fun r hr => (stream_sized hp r hr).1) (fun r hr => (stream_sized hp r hr).2)
    hlabels fuel
  exact ⟨h, h ▸ C68_release_never_panics⟩

/-- **C68.** Every record read from a proof has a proper name and can be written in both builds, with the same result. -/
theorem C68_parsed_records_written {bs : Bytes} (hp : parseRRStream dbg bs = .ok inp) (ttl : UInt32) :
    ∀ r ∈ inp, Obtainable r.name ∧ writeRRD r ttl = some (writeRR r ttl) :=
  fun r hr => ⟨(stream_sized hp r hr).1, writeRRD_ok (stream_sized hp r hr).2 ttl⟩

/-- **C68.** Writing a record does the same in debug and release builds if its data is no longer than 65535 bytes. -/
theorem C68_write_partial {r : RR} (h : (rdata r).length ≤ 65535) (ttl : UInt32) : writeRRD r ttl = some (writeRR r ttl) :=
  writeRRD_ok h ttl

/-- **C68.** Key tags of keys of possible size are computed without overflow. -/
theorem C68_key_tag {k : DnsKey} (h : k.pubkey.length ≤ 65535) : k.computeKeyTagD = some k.computeKeyTag := computeKeyTagD_ok h

/-- The example stream with, besides, a good signature over the TXT records of `a.c.`, of which there are none, claiming 255
labels. -/
def emptySigned : List RR := wStream ++ [wSig "a.c." 16 255 "c."]

/-- **C68 is false**: a zone can sign a record set that is not part of the proof, claiming 255 labels; debug builds panic on
`rrsig.labels + 1`, release builds go on. -/
theorem C68_fails_for_255_labels : verifyRRStreamD wPlatform 3 emptySigned = some .panic ∧
    verifyRRStream false wPlatform 3 emptySigned = some (.err .invalid) := by decide +kernel

/-- This input can be written and parsed: it is within reach of whoever makes proofs. -/
example : parseRRStream true (emptySigned.map (writeRR · 0)).flatten = .ok emptySigned := by decide +kernel

/-- **C68 is false**: an RRSIG with a signature that fits no record cannot be written in a debug build. -/
theorem C68_fails_for_long_signature (ttl : UInt32) (sig : Bytes) (h : sig.length = 65517) :
    writeRRD (.rrsig ⟨⟨ascii "a."⟩, 1, 8, 1, 0, 0, 0, 0, rootName, sig⟩) ttl = none := by
  have e1 : (UInt16.ofNat sig.length).toNat = 65517 := by rw [h]; rfl
  have e2 : addU16 (2 + 1 + 1 + 4*3 + 2) (nameLen rootName) = some 19 := by decide
  have e3 : addU16 19 (UInt16.ofNat sig.length) = none := if_neg (by rw [e1]; decide)
  simp only [writeRRD, RR.writeDataD, RRSig.writeDataD, e2, e3, Option.map_none]

example : ∃ sig : Bytes, sig.length = 65517 := ⟨List.replicate 65517 0, List.length_replicate⟩

/-- A signed NSEC3 record with the given salt, and the root's keys. -/
def longDenial (salt : Bytes) (types : NSecTypeMask) : List RR :=
  wZone "." 0 ++ [.nsec3 ⟨⟨ascii "a."⟩, 1, 0, 1, salt, [], types⟩, wSig "a." 50 1 "."]

/-- **C68 is false** of records that fit no message (they cannot be parsed, but they can be made): a debug build of `verify_rr_stream` panics while it writes an
NSEC3 record with such a salt. -/
theorem C68_fails_for_long_salt (salt : Bytes) (types : NSecTypeMask) (h : salt.length = 65530) :
    verifyRRStreamD wPlatform 3 (longDenial salt types) = some .panic := by
  have e0 : (UInt16.ofNat salt.length).toNat = 65530 := by rw [h]; rfl
  have e1 : addU16 (4 + 2) (UInt16.ofNat salt.length) = none := if_neg (by rw [e0]; decide)
  let ksig : RRSig := ⟨⟨ascii "."⟩, 48, 8, 0, 3600, 2000000000, 1000000000, 20326, ⟨ascii "."⟩, [1]⟩
  let key : DnsKey := ⟨⟨ascii "."⟩, 257, 3, 8, [1, 3, 0x4A, 0x5A]⟩
  let nsig : RRSig := ⟨⟨ascii "a."⟩, 50, 8, 1, 3600, 2000000000, 1000000000, 20326, ⟨ascii "."⟩, [1]⟩
  let n : NSec3 := ⟨⟨ascii "a."⟩, 1, 0, 1, salt, [], types⟩
  have d1 : longDenial salt types = [.dnskey key, .rrsig ksig, .nsec3 n, .rrsig nsig] := rfl
  have r1 : rrsigs [.dnskey key, .rrsig ksig, .nsec3 n, .rrsig nsig] = [ksig, nsig] := rfl
  have r2 : dnskeys [.dnskey key, .rrsig ksig, .nsec3 n, .rrsig nsig] = [key] := rfl
  have z1 : [ksig, nsig].filter (fun s => s.name.bytes == [dot] && s.ty == dnskeyType) = [ksig] := by decide +kernel
  have z2 : [ksig, nsig].filter (fun s => s.keyName.bytes == [dot] && s.ty != dnskeyType) = [nsig] := by decide +kernel
  have z3 : [key].filter (fun k => k.name.bytes == [dot]) = [key] := by decide +kernel
  have c1 : coveredRecords [.dnskey key, .rrsig ksig, .nsec3 n, .rrsig nsig] nsig = [.nsec3 n] := by
    simp only [coveredRecords, List.filter_cons, List.filter_nil]
    have a1 : ((RR.dnskey key).name == nsig.name && (RR.dnskey key).ty == nsig.ty) = false := by decide +kernel
    have a2 : ((RR.rrsig ksig).name == nsig.name && (RR.rrsig ksig).ty == nsig.ty) = false := by decide +kernel
    have a3 : ((RR.nsec3 n).name == nsig.name && (RR.nsec3 n).ty == nsig.ty) = true := by
      show ((⟨ascii "a."⟩ : Name) == ⟨ascii "a."⟩ && nsec3Type == 50) = true
      decide +kernel
    have a4 : ((RR.rrsig nsig).name == nsig.name && (RR.rrsig nsig).ty == nsig.ty) = false := by decide +kernel
    simp [a1, a2, a3, a4]
  have v1 : verifyDnskeysD wPlatform [ksig] rootHints [key] = .ok ksig := by decide +kernel
  have o1 : signedOwnerD nsig (.nsec3 n) = .ok (writeName (ascii "a.")) := by
    have : (⟨ascii "a."⟩ : Name).labels = 1 := by decide +kernel
    simp [signedOwnerD, nsig, n, RR.name, this]
  have s1 : signedDataD nsig [.nsec3 n] = .panic := by
    have : sortBy RR.partialCmp [RR.nsec3 n] = [.nsec3 n] := rfl
    have w : (RR.nsec3 n).writeDataD = none := by simp only [RR.writeDataD, NSec3.writeDataD, n, e1]
    rw [signedDataD, this, signedRecordsD, o1]
    simp only [Res.bind, w, Res.map]
  have v2 : verifyRrsigD wPlatform nsig [key] [.nsec3 n] = .panic := by
    have t1 : key.computeKeyTagD = some 20326 := by decide +kernel
    have t2 : (([RR.nsec3 n].any fun r => nsig.ty != r.ty) : Bool) = false := rfl
    rw [verifyRrsigD, t2, verifyKeysLoopD, t1]
    have t3 : ((20326 : UInt16) == nsig.keyTag && key.protocol == 3 && (key.flags &&& 0b100000000 != 0) && key.alg == nsig.alg) = true := by decide +kernel
    simp only [t3, s1, Res.bind, if_true, Bool.false_eq_true, if_false]
  have w1 : endsWith nsig.name.bytes [dot] = true := by decide +kernel
  have f1 : doZoneD wPlatform [.dnskey key, .rrsig ksig, .nsec3 n, .rrsig nsig] [dot] none VState.init = .panic := by
    rw [doZoneD, if_pos rfl, dnskeyRrsigs, zoneRrsigs, zoneKeys, r1, r2, z1, z2, z3, v1]
    simp only [Res.bind]
    rw [sigLoopD, w1, zoneKeys, r2, z3, c1, v2]
    rfl
  rw [verifyRRStreamD, d1, zoneLoopD, if_pos (Or.inl rfl)]
  simp only [VState.init] at f1 ⊢
  simp [f1]

example : ∃ salt : Bytes, salt.length = 65530 := ⟨List.replicate 65530 0, List.length_replicate⟩

/-- The example stream meets the hypotheses of `C68_debug_as_release_partial`, and debug builds verify it. -/
example : (∀ r ∈ wStream, Obtainable r.name) ∧ (∀ r ∈ wStream, (rdata r).length ≤ 65535) ∧ No255Empty wStream ∧
    (∃ v, verifyRRStreamD wPlatform 3 wStream = some (.ok v)) := by
  have hp : parseRRStream true (wStream.map (writeRR · 0)).flatten = .ok wStream := by decide +kernel
  refine ⟨fun r hr => (stream_sized hp r hr).1, fun r hr => (stream_sized hp r hr).2, ?_, ?_⟩
  · intro s hs h
    exfalso
    have : ∀ r ∈ wStream, (match r with | .rrsig s => s.labels != 255 | _ => true) = true := by decide +kernel
    have := this _ hs
    simp [h] at this
  · have : (verifyRRStreamD wPlatform 3 wStream).any (fun | .ok _ => true | _ => false) = true := by decide +kernel
    cases hv : verifyRRStreamD wPlatform 3 wStream with
    | none => rw [hv] at this; simp at this
    | some r =>
      rw [hv] at this
      cases r with
      | ok v => exact ⟨v, rfl⟩
      | err e => simp at this
      | panic => simp at this

end Dnssec.Props
