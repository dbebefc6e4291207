import Verif.Proofs.Records
import Verif.Props.Wire
import Verif.Props.Sig

/-! # C59-C61: records on the wire, exactly -/

namespace Dnssec.Props

open Dnssec Spec

/-! ## C59 -/

/-- **C59, exact.** A record is read from (a place in) a message exactly if there is one there in the format of the RFCs; the record,
its TTL and the place after it are those of the RFCs. -/
theorem C59_record_iff (dbg : Bool) (msg inp : Bytes) (rr : RR) (ttl : UInt32) (rest : Bytes) :
    parseWirePacketRR dbg msg inp = .ok ((rr, ttl), rest) ↔ ReadsRecord dbg msg inp (rr, ttl) rest := parseWirePacketRR_iff

/-- **C59.** A record of a class other than IN is rejected, in every build and whatever follows. -/
theorem C59_other_class (dbg : Bool) (msg inp : Bytes) (owner : Name) (ty c : UInt16) (x : Bytes)
    (h : ReadsName msg inp owner (be16 ty ++ be16 c ++ x)) (hc : c ≠ 1) : parseWirePacketRR dbg msg inp = .err () :=
  parse_err_of_header h (.inl hc)

/-- **C59.** A record of a type this crate does not know is rejected (it is not skipped). -/
theorem C59_unknown_type (dbg : Bool) (msg inp : Bytes) (owner : Name) (ty c : UInt16) (x : Bytes)
    (h : ReadsName msg inp owner (be16 ty ++ be16 c ++ x)) (ht : ty.toNat ∉ [1, 2, 5, 16, 28, 39, 43, 46, 47, 48, 50, 52]) :
    parseWirePacketRR dbg msg inp = .err () := by
  refine parse_err_of_header h (.inr ?_)
  intro hm
  apply ht
  simp only [List.mem_cons, List.not_mem_nil, or_false] at hm ⊢
  rcases hm with rfl | rfl | rfl | rfl | rfl | rfl | rfl | rfl | rfl | rfl | rfl | rfl <;> simp

/-- Both are met: an MX record, and a CHAOS class TXT record, of the root. -/
example : ReadsName [] ([0] ++ be16 15 ++ be16 1 ++ be32 0 ++ be16 3 ++ [0, 1, 0]) ⟨ascii "."⟩
      (be16 15 ++ be16 1 ++ (be32 0 ++ be16 3 ++ [0, 1, 0])) ∧
    ReadsName [] ([0] ++ be16 16 ++ be16 3 ++ be32 0 ++ be16 2 ++ [1, 97]) ⟨ascii "."⟩
      (be16 16 ++ be16 3 ++ (be32 0 ++ be16 2 ++ [1, 97])) := by
  constructor <;> rw [← readName_reads] <;> decide

/-- **C59.** A record cut short is rejected: no stream consists of, or ends in, a non-empty strict prefix of a record. -/
theorem C59_truncated (dbg : Bool) (stream p q : Bytes) (rrs : List RR) (r : RR × UInt32) (hs : parseRRStream dbg stream = .ok rrs)
    (h : ReadsRecord dbg [] (p ++ q) r []) (hp : p ≠ []) (hq : q ≠ []) :
    parseRRStream dbg (stream ++ (p ++ q)) = .ok (rrs ++ [r.1]) ∧ ∀ rrs', parseRRStream dbg (stream ++ p) ≠ .ok rrs' := by
  have h1 : parseRR dbg (p ++ q) = .ok (r.1, []) := parseRR_iff.mpr ⟨r.2, h⟩
  refine ⟨C04_concatenation dbg _ _ _ _ hs ?_, ?_⟩
  · rw [parseRRStream_step h1]; rfl
  · intro rrs' h2
    obtain ⟨ys, _, h3⟩ := stream_prefix h2 hs
    rw [stream_truncated h1 hp hq] at h3
    cases h3

/-- The hypotheses are met by every record cut anywhere. -/
example (rr : RR) (h : Encodable rr) (ttl : UInt32) (k : Nat) (h0 : 0 < k) (hk : k < (writeRR rr ttl).length) (rrs' : List RR) :
    parseRRStream true ((writeRR rr ttl).take k) ≠ .ok rrs' := by
  have h1 := parse_writeRR true [] rr h ttl []
  rw [List.append_nil, C59_record_iff] at h1
  refine (C59_truncated true [] ((writeRR rr ttl).take k) ((writeRR rr ttl).drop k) [] (rr, ttl) rfl ?_ ?_ ?_).2 rrs'
  · rw [List.take_append_drop]; exact h1
  · intro he
    have := congrArg List.length he
    rw [List.length_take, List.length_nil] at this; omega
  · intro he
    have := congrArg List.length he
    rw [List.length_drop, List.length_nil] at this; omega

/-- **C59.** How a stream is cut into records does not depend on what follows: if both a stream and a beginning of it are accepted,
the records of the beginning come first and the rest gives the other ones. -/
theorem C59_prefix (dbg : Bool) (a b : Bytes) (rrs xs : List RR) (h : parseRRStream dbg (a ++ b) = .ok rrs)
    (ha : parseRRStream dbg a = .ok xs) : ∃ ys, rrs = xs ++ ys ∧ parseRRStream dbg b = .ok ys := stream_prefix h ha

example : parseRRStream true (writeRR exTxt 1 ++ writeRR exSig 2) = .ok [exTxt, exSig] ∧ parseRRStream true (writeRR exTxt 1) = .ok [exTxt] := by
  constructor
  · have := C04_stream_of_writes_partial true [(exTxt, 1), (exSig, 2)] (by
      intro p hp
      simp only [List.mem_cons, List.not_mem_nil, or_false] at hp
      rcases hp with rfl | rfl
      · exact exTxt_encodable
      · exact exSig_encodable)
    simpa using this
  · have := C04_stream_of_writes_partial true [(exTxt, 1)] (by
      intro p hp; rw [List.mem_singleton] at hp; subst hp; exact exTxt_encodable)
    simpa using this

/-! ## C60 -/

/-- **C60, exact.** `write_rr` writes the owner name, the type's IANA number, class 1, the TTL, the length of the RDATA and the RDATA,
all in the format of the RFCs and in canonical form. Missing: empty TXT data, for which it is false (C05). -/
theorem C60_write_partial (rr : RR) (ttl : UInt32) (h : ∀ t, rr = .txt t → t.data ≠ []) :
    writeRR rr ttl = nameWire rr.name.bytes ++ be16 (UInt16.ofNat (typeNumber rr)) ++ be16 1 ++ be32 ttl ++
      be16 (UInt16.ofNat (rdata rr).length) ++ rdata rr := writeRR_eq rr ttl h

/-- **C60.** `ty()` is the IANA number. -/
theorem C60_type_numbers (rr : RR) : rr.ty.toNat = typeNumber rr := typeNumber_eq rr

/-- **C60.** The integers in all these formats are big-endian, in two and in four bytes. -/
theorem C60_integers (x : UInt16) (y : UInt32) :
    ((be16 x).length = 2 ∧ bigEndian (be16 x) = x.toNat) ∧ ((be32 y).length = 4 ∧ bigEndian (be32 y) = y.toNat) := by
  have hx := x.toNat_lt
  have hy := y.toNat_lt
  refine ⟨⟨rfl, ?_⟩, rfl, ?_⟩
  · simp only [be16, bigEndian, List.foldl_cons, List.foldl_nil, UInt8.toNat_ofNat']
    omega
  · simp only [be32, bigEndian, List.foldl_cons, List.foldl_nil, UInt8.toNat_ofNat']
    omega

example : bigEndian [1, 2] = 258 ∧ be16 258 = [1, 2] ∧ be32 16909060 = [1, 2, 3, 4] := by decide

/-- **C60.** Different records, or records with different TTLs, are written differently. -/
theorem C60_write_injective_partial (r1 r2 : RR) (t1 t2 : UInt32) (h1 : Encodable r1) (h2 : Encodable r2)
    (h : writeRR r1 t1 = writeRR r2 t2) : r1 = r2 ∧ t1 = t2 := by
  have e1 := parse_writeRR false [] r1 h1 t1 []
  have e2 := parse_writeRR false [] r2 h2 t2 []
  rw [h, e2] at e1
  simp only [Res.ok.injEq, Prod.mk.injEq, and_true] at e1
  exact ⟨e1.1.symm, e1.2.symm⟩

/-- An address record, byte by byte. -/
example : writeRR exA 3600 = [1, 97, 1, 98, 1, 99, 0, 0, 1, 0, 1, 0, 0, 14, 16, 0, 4, 1, 2, 3, 4] ∧ typeNumber exA = 1 ∧
    (∀ t, exA = .txt t → t.data ≠ []) ∧ Encodable exTxt := ⟨by decide, rfl, by simp [exA], exTxt_encodable⟩

/-! ## C61 -/

/-- **C61, exact.** RDATA read from a proof is put, unchanged, into the bytes whose signature is verified (and is written unchanged by
`write_rr`) exactly if it is in canonical form. -/
theorem C61_rdata_preserved_iff (dbg : Bool) (owner : Name) (ty : Nat) (data : Bytes) (r : RR) (h : ReadsRData dbg [] owner ty data r) :
    rdata r = data ↔ CanonicalRData ty data := rdata_canonical h

/-- **C61, exact.** A record of a proof is reproduced by `write_rr` exactly if it is in canonical form. Missing: TXT records with empty
data, which are never reproduced (C05). -/
theorem C61_record_preserved_iff_partial (dbg : Bool) (p : Bytes) (r : RR) (ttl : UInt32) (h : ReadsRecord dbg [] p (r, ttl) [])
    (ht : ∀ t, r = .txt t → t.data ≠ []) :
    writeRR r ttl = p ↔ ∃ ls data, (∀ l ∈ ls, Label l) ∧ CanonicalRData (typeNumber r) data ∧
      p = wire ls ++ be16 (UInt16.ofNat (typeNumber r)) ++ be16 1 ++ be32 ttl ++ be16 (UInt16.ofNat data.length) ++ data :=
  record_canonical h ht

/-- The TXT record with the strings `a` and `b`, on the wire and as it is read. -/
def exSplit : Bytes := [1, 99, 0, 0, 16, 0, 1, 0, 0, 14, 16, 0, 4, 1, 97, 1, 98]

/-- See `exSplit`. -/
def exSplitRead : RR := .txt ⟨⟨ascii "c."⟩, ascii "ab"⟩

/-- Its RDATA is read, and is not canonical. -/
theorem exSplit_reads : ReadsRData true [] ⟨ascii "c."⟩ 16 [1, 97, 1, 98] exSplitRead :=
  .txt [[97], [98]] (by simp)

/-- **C61 fails.** A zone publishes the TXT record with the two strings `a` and `b`; the signer signs it as RFC 4034 3.1.8.1 says, over
the RDATA as published. The record is read from the proof, but its good signature is rejected: the crate checks it against the same
record with the single string `ab`. -/
theorem C61_fails_split_txt :
    let message := [0, 16] ++ exNsPrefix.drop 2 ++ exSplit
    let p := exPlatformFor message
    let sig := { exNsSig with ty := 16 }
    parseRRStream true exSplit = .ok [exSplitRead] ∧ CryptoOk p sig.alg exKey.pubkey message sig.signature ∧
      FirstEligible sig [exKey] exKey ∧ verifyRrsig p sig [exKey] [exSplitRead] = .err .invalid := by
  refine ⟨by decide, ?_, ⟨[], [], rfl, ⟨by decide +kernel, rfl, by decide, rfl⟩, by simp⟩, by decide +kernel⟩
  refine .rsaSha256 [7, 9] [3] rfl (by decide) ?_ (by decide) (by decide)
  exact .short 1 [3] [7, 9] (by decide) (by decide)

/-- With one string, the same is accepted. -/
example :
    let message := [0, 16] ++ exNsPrefix.drop 2 ++ [1, 99, 0, 0, 16, 0, 1, 0, 0, 14, 16, 0, 3, 2, 97, 98]
    verifyRrsig (exPlatformFor message) { exNsSig with ty := 16 } [exKey] [exSplitRead] = .ok () := by decide +kernel

/-- The NSEC record at `c.` with the next name `B.c.`, on the wire and as it is read. -/
def exCapital : Bytes := [1, 99, 0, 0, 47, 0, 1, 0, 0, 14, 16, 0, 8, 1, 66, 1, 99, 0, 0, 1, 64]

/-- See `exCapital`. -/
def exCapitalRead : RR := .nsec ⟨⟨ascii "c."⟩, ⟨ascii "b.c."⟩, NSecTypeMask.fromTypes [1]⟩

/-- **C61 fails.** The same with an NSEC record whose next name has a capital letter, signed as RFC 6840 5.1 says, over the next name as published: the crate
checks the signature against the next name in lower case. -/
theorem C61_fails_capital_next_name :
    let message := [0, 47] ++ exNsPrefix.drop 2 ++ exCapital
    let p := exPlatformFor message
    let sig := { exNsSig with ty := 47 }
    parseRRStream true exCapital = .ok [exCapitalRead] ∧ CryptoOk p sig.alg exKey.pubkey message sig.signature ∧
      FirstEligible sig [exKey] exKey ∧ verifyRrsig p sig [exKey] [exCapitalRead] = .err .invalid := by
  refine ⟨by rfl, ?_, ⟨[], [], rfl, ⟨by decide +kernel, rfl, by decide, rfl⟩, by simp⟩, by decide +kernel⟩
  refine .rsaSha256 [7, 9] [3] rfl (by decide) ?_ (by decide) (by decide)
  exact .short 1 [3] [7, 9] (by decide) (by decide)

/-- In lower case, the same is accepted. -/
example :
    let message := [0, 47] ++ exNsPrefix.drop 2 ++ [1, 99, 0, 0, 47, 0, 1, 0, 0, 14, 16, 0, 8, 1, 98, 1, 99, 0, 0, 1, 64]
    verifyRrsig (exPlatformFor message) { exNsSig with ty := 47 } [exKey] [exCapitalRead] = .ok () := by decide +kernel

end Dnssec.Props
