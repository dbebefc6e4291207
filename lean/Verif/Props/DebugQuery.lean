import Verif.Proofs.DebugQuery
import Verif.Props.Server
import Verif.Proofs.Records

/-! # C77: building proofs in debug builds

`processResponseD` and `buildProofD` are `process_response` and `build_proof` with all the checks of debug builds, `processResponse false`
and `buildProof false` those of release builds. -/

namespace Dnssec.Props

open Dnssec Spec

/-- **C77.** Unless it panics, a debug build does to every builder, with every response, what a release build does.
Missing from the full property: that it does not panic, which is false. -/
theorem C77_debug_is_release_partial {b : ProofBuilder} {resp : Bytes} (h : (b.processResponseD resp).2 ≠ .panic) :
    b.processResponseD resp = b.processResponse false resp := processResponseD_release h

/-- **C77.** The same for the TCP driver, with every peer. -/
theorem C77_driver_debug_is_release_partial {s : Stream} {name : Name} {ty : UInt16} {fuel : Nat}
    (h : ∀ s', buildProofD fuel s name ty ≠ some (s', .panic)) : buildProofD fuel s name ty = buildProof false fuel s name ty :=
  buildProofD_release h

/-- **C77, exactly:** in a debug build `process_response` panics iff a response is outstanding, the header of the message is acceptable,
and, after records that can be read, either a record makes the parser panic (C06), or an RRSIG that goes into the proof takes more than
65535 octets once the name of the signer is decompressed. -/
theorem C77_debug_panics_iff_partial {b : ProofBuilder} {resp : Bytes} :
    (b.processResponseD resp).2 = .panic ↔ 0 < b.pending ∧ (MessagePanics true resp ∨ MessageOversize resp) :=
  processResponseD_panic_iff

/-- **C77.** Up to 65280 octets only the parser can panic. -/
theorem C77_short_messages {b : ProofBuilder} {resp : Bytes} (h : resp.length ≤ 65280) (hp : ¬ MessagePanics true resp) :
    b.processResponseD resp = b.processResponse false resp := by
  apply C77_debug_is_release_partial
  rw [Ne, C77_debug_panics_iff_partial]
  rintro ⟨_, h' | h'⟩
  · exact hp h'
  · exact not_oversize_of_le h h'

/-- The hypothesis of the first theorem is met by a response with two records that is accepted. -/
example : ∃ b more, exBuilder.processResponseD (exResponse 0x81a0 2 (writeRR exTxt 300 ++ writeRR exSig 60)) = (b, .ok more) :=
  ⟨⟨writeRR exTxt 300 ++ writeRR exSig 60, 60, [⟨ascii "example.com."⟩], 2, 3⟩,
    [queryBytes ⟨ascii "example.com."⟩ 48, queryBytes ⟨ascii "example.com."⟩ 43], by decide +kernel⟩

/-- That of the last one as well. -/
example : (exResponse 0x81a0 2 (writeRR exTxt 300 ++ writeRR exSig 60)).length ≤ 65280 ∧
    ¬ MessagePanics true (exResponse 0x81a0 2 (writeRR exTxt 300 ++ writeRR exSig 60)) := by
  refine ⟨by decide +kernel, fun h => ?_⟩
  have : (exBuilder.processResponse true (exResponse 0x81a0 2 (writeRR exTxt 300 ++ writeRR exSig 60))).2 = .panic :=
    C73_process_response_panics_iff_partial.mpr ⟨by decide, h⟩
  revert this
  decide +kernel

/-! ### A response with an RRSIG that is too long -/

/-- The 40-letter label of the signer. -/
def longLabel : Bytes := List.replicate 40 97

/-- The signer. -/
def longSigner : Name := ⟨longLabel ++ [46]⟩

/-- The 16 octets of an RRSIG before the signer's name, and the key tag. -/
def longFixed : Bytes := be16 16 ++ [8, 0] ++ be32 60 ++ be32 2 ++ be32 1 ++ be16 0

/-- Header, question and answer up to the signature, which follows at offset 48: there the name of the signer points to. -/
def longHead : Bytes :=
  be16 0 ++ (be16 0x81a0 ++ (be16 1 ++ (be16 1 ++ (be16 0 ++ (be16 0 ++ ([0] ++ (be16 16 ++ (be16 1 ++
    ([0] ++ (be16 46 ++ (be16 1 ++ (be32 60 ++ (be16 65507 ++ (longFixed ++ [192, 48]))))))))))))))

/-- The signature: the wire form of the signer's name and anything. -/
def longSignature (z : Bytes) : Bytes := wire [longLabel] ++ z

/-- The response. -/
def longResponse (z : Bytes) : Bytes := longHead ++ longSignature z

/-- The record in it. -/
def longSig (z : Bytes) : RRSig := ⟨⟨[46]⟩, 16, 8, 0, 60, 2, 1, 0, longSigner, longSignature z⟩

variable {z : Bytes}

theorem longSignature_length : (longSignature z).length = 42 + z.length := by
  rw [longSignature, List.length_append]; rfl

theorem longHead_length : longHead.length = 48 := by decide

theorem longSigner_reads (rest : Bytes) : ReadsName (longResponse z) (192 :: 48 :: rest) longSigner rest := by
  rw [← readName_reads, readName_iff]
  have hl : HasLabels longSigner [longLabel] := by decide
  refine ⟨([longLabel].map (fun l => l ++ [46])).flatten, .pointer 254 192 48 _ rest z (by decide) ?_ ?_, ?_, ?_⟩
  · rw [longResponse, List.length_append, longHead_length, longSignature_length]
    have : ((192 : UInt8).toNat - 192) * 256 + (48 : UInt8).toNat = 48 := by decide
    omega
  · have : ((192 : UInt8).toNat - 192) * 256 + (48 : UInt8).toNat = longHead.length := by decide
    rw [this, longResponse, List.drop_left]
    exact Decodes_wire (longResponse z) 254 [longLabel] hl.labels z
  · rw [orRoot_flatten]
    exact text_nameText hl.labels (by rw [← hl.bytes]; exact hl.short)
  · rw [orRoot_flatten, lower_text hl.labels, hl.bytes]

theorem longSig_reads (dbg : Bool) (hz : z.length = 65445) :
    ReadsRecord dbg (longResponse z) ([0] ++ (be16 46 ++ (be16 1 ++ (be32 60 ++ (be16 65507 ++ (longFixed ++ 192 :: 48 :: longSignature z))))))
      (.rrsig (longSig z), 60) [] := by
  have hlen : (longFixed ++ 192 :: 48 :: longSignature z).length = 65507 := by
    have : longFixed.length = 18 := by decide
    rw [List.length_append, this, List.length_cons, List.length_cons, longSignature_length, hz]
  refine ⟨⟨[46]⟩, 46, longFixed ++ 192 :: 48 :: longSignature z, _,
    readName_reads.mp (readName_wire _ (n := ⟨[46]⟩) (ls := []) (by decide) _), ?_, by omega, ?_⟩
  · rw [hlen]
    simp only [List.append_assoc, List.append_nil]
    rfl
  · exact .rrsig 16 8 0 60 2 1 0 longSigner _ (longSignature z) (longSigner_reads _)

theorem longResponse_isMessage : IsMessage (longResponse z) 0 0x81a0 1 1 0 0 ⟨[46]⟩ 16 1
    ([0] ++ (be16 46 ++ (be16 1 ++ (be32 60 ++ (be16 65507 ++ (longFixed ++ 192 :: 48 :: longSignature z)))))) := by
  refine ⟨[0] ++ (be16 16 ++ (be16 1 ++ ([0] ++ (be16 46 ++ (be16 1 ++ (be32 60 ++ (be16 65507 ++ (longFixed ++ 192 :: 48 :: longSignature z)))))))),
    ?_, readName_reads.mp (readName_wire _ (n := ⟨[46]⟩) (ls := []) (by decide) _)⟩
  rw [longResponse, longHead]
  simp only [List.append_assoc, List.cons_append, List.nil_append]

theorem longResponse_contributes (dbg : Bool) (hz : z.length = 65445) : Contributes dbg (longResponse z) [(.rrsig (longSig z), 60)] :=
  ⟨0x81a0, 1, 0, 0, ⟨[46]⟩, 16, 1, _, [], [], [(.rrsig (longSig z), 60)], [], longResponse_isMessage, by decide, by decide, by decide, by decide,
    by decide, by decide, .cons (longSig_reads dbg hz) (.nil _), .nil _, rfl⟩

theorem longSig_rdata (hz : z.length = 65445) : (rdata (.rrsig (longSig z))).length = 65547 := by
  have : (writeName (longSig z).keyName.bytes).length = 42 := (by decide : (writeName longSigner.bytes).length = 42)
  rw [rdata_rrsig]
  simp only [List.length_append, List.length_cons, be16_length, be32_length, this]
  have : (longSig z).signature.length = 42 + z.length := longSignature_length
  omega

/-- The response has 65535 octets, the most that a TCP message can have, and an RRSIG that takes 65547 octets without compression. -/
theorem longResponse_oversize (hz : z.length = 65445) : (longResponse z).length = 65535 ∧ MessageOversize (longResponse z) := by
  refine ⟨by rw [longResponse, List.length_append, longHead_length, longSignature_length, hz], ?_⟩
  refine ⟨0x81a0, 1, 0, 0, ⟨[46]⟩, 16, 1, _, [], longSig z, 60, [], longResponse_isMessage, by decide, by decide, by decide, by decide,
    by decide, by decide, .cons (longSig_reads true hz) (.nil _), Or.inl (by decide), ?_⟩
  rw [longSig_rdata hz]; decide

/-- **C77 is false:** there is a response of 65535 octets that every builder accepts, if it has responses outstanding and is from a
release build, and on which it panics if it is from a debug build. -/
theorem C77_fails_for_long_rrsig {b : ProofBuilder} (h : 0 < b.pending) : ∃ resp : Bytes, resp.length = 65535 ∧
    (b.processResponseD resp).2 = .panic ∧ ∃ b' more, b.processResponse false resp = (b', .ok more) :=
  have hz : (List.replicate 65445 (0 : UInt8)).length = 65445 := List.length_replicate
  ⟨longResponse (List.replicate 65445 0), (longResponse_oversize hz).1,
    C77_debug_panics_iff_partial.mpr ⟨h, Or.inr (longResponse_oversize hz).2⟩,
    ProofBuilder.processResponse_accepts h (longResponse_contributes false hz)⟩

/-- A response with nothing but the TXT record of the examples. -/
def txtResponse : Bytes := exResponse 0x81a0 1 (writeRR exTxt 300)

theorem txtResponse_contributes : Contributes false txtResponse [(exTxt, 300)] := by
  obtain ⟨fl, ar, qn, qt, qc, h1, h2, h3, h4, h5, h6, h7⟩ := (readHeader_iff txtResponse 1 0 (writeRR exTxt 300)).mp (by decide +kernel)
  exact ⟨fl, 1, 0, ar, qn, qt, qc, _, [], [], [(exTxt, 300)], [], h1, h2, h3, h4, h5, h6, h7,
    .cons (parseWirePacketRR_iff.mp (by decide +kernel)) (.nil _), .nil _, rfl⟩

theorem mem_nil {α : Type} {l : List α} (h : ∀ x, x ∉ l) : l = [] := List.eq_nil_iff_forall_not_mem.mpr h

theorem accepts_txt {b : ProofBuilder} (hp : 0 < b.pending) : ∃ more ttl, b.processResponse false txtResponse =
    ({ b with proof := b.proof ++ writeRR exTxt 300, minTtl := ttl, pending := b.pending - 1 }, .ok more) := by
  obtain ⟨b', more, h⟩ := ProofBuilder.processResponse_accepts hp txtResponse_contributes
  obtain ⟨recs, ttl, new, _, hc, _, _, h1, h2, e, _⟩ := ProofBuilder.processResponse_ok h
  obtain rfl := contributes_unique hc txtResponse_contributes
  have : new = [] := mem_nil fun k hk => by
    rcases (h2 k).mp (by simp [hk]) with h | h
    · exact h1 k hk h
    · simp [signers, exTxt] at h
  subst this
  refine ⟨more, min b.minTtl ttl, ?_⟩
  rw [h, e]
  simp [encode, cost]

theorem accepts_long (hz : z.length = 65445) : ∃ more ttl,
    (ProofBuilder.new ⟨ascii "a."⟩ 16).1.processResponse false (longResponse z) =
      (⟨writeRR (.rrsig (longSig z)) 60, ttl, [longSigner], 2, 3⟩, .ok more) := by
  obtain ⟨b', more, h⟩ := ProofBuilder.processResponse_accepts (b := (ProofBuilder.new ⟨ascii "a."⟩ 16).1) (by decide)
    (longResponse_contributes false hz)
  obtain ⟨recs, ttl, new, _, hc, _, hn, _, h2, e, _⟩ := ProofBuilder.processResponse_ok h
  obtain rfl := contributes_unique hc (longResponse_contributes false hz)
  have hr : (ProofBuilder.new ⟨ascii "a."⟩ 16).1.requested = [] := rfl
  rw [hr] at h2
  simp only [List.nil_append, List.not_mem_nil, false_or] at h2
  have hs : signers [(RR.rrsig (longSig z), 60)] = [longSigner] := rfl
  rw [hs] at h2
  have : new = [longSigner] := by
    cases new with
    | nil => exact absurd ((h2 longSigner).mpr (by simp)) (by simp)
    | cons x new =>
      have hx := (h2 x).mp (by simp)
      rw [List.mem_singleton] at hx
      subst hx
      have : new = [] := mem_nil fun k hk => by
        have := (h2 k).mp (by simp [hk])
        rw [List.mem_singleton] at this
        subst this
        exact (List.nodup_cons.mp hn).1 hk
      rw [this]
  subst this
  refine ⟨more, min (ProofBuilder.new ⟨ascii "a."⟩ 16).1.minTtl ttl, ?_⟩
  rw [h, e]
  simp [encode, ProofBuilder.new]
  decide

/-- Written out, the record has its length modulo 65536, that is 11. -/
theorem writeRR_longSig (hz : z.length = 65445) : ∃ tail : Bytes, writeRR (.rrsig (longSig z)) 60 =
    [0] ++ (be16 46 ++ (be16 1 ++ (be32 60 ++ (be16 11 ++ (longFixed.take 11 ++ tail))))) := by
  refine ⟨longFixed.drop 11 ++ (writeName longSigner.bytes ++ longSignature z), ?_⟩
  rw [writeRR_eq _ _ (by intro t h; exact nomatch h), longSig_rdata hz, rdata_rrsig]
  have e1 : nameWire (RR.rrsig (longSig z)).name.bytes = [0] := (by decide : nameWire [46] = [0])
  have e2 : (UInt16.ofNat 65547) = 11 := by decide
  have e3 : UInt16.ofNat (typeNumber (RR.rrsig (longSig z))) = 46 := rfl
  rw [e1, e2, e3]
  have e4 : ∀ t : Bytes, longFixed.take 11 ++ (longFixed.drop 11 ++ t) = longFixed ++ t := by
    intro t; rw [← List.append_assoc, List.take_append_drop]
  rw [e4]
  simp only [longFixed, longSig, List.append_assoc, List.cons_append, List.nil_append]

theorem parse_short_rrsig (dbg : Bool) (tail : Bytes) :
    parseRR dbg ([0] ++ (be16 46 ++ (be16 1 ++ (be32 60 ++ (be16 11 ++ (longFixed.take 11 ++ tail)))))) = .err () := by
  have hr := readName_wire [] (n := ⟨[46]⟩) (ls := []) (by decide)
    (be16 46 ++ (be16 1 ++ (be32 60 ++ (be16 11 ++ (longFixed.take 11 ++ tail)))))
  have ht : (longFixed.take 11 ++ tail).take 11 = longFixed.take 11 := List.take_left' (by decide)
  have hd : (longFixed.take 11 ++ tail).drop 11 = tail := List.drop_left' (by decide)
  have hlt : ¬ (longFixed.take 11 ++ tail).length < (11 : UInt16).toNat := by
    have : (longFixed.take 11).length = 11 := by decide
    rw [List.length_append, this]; simp
  have h11 : (11 : UInt16).toNat = 11 := rfl
  have he : readRData dbg [] 46 ⟨[46]⟩ (longFixed.take 11) = .err () := by cases dbg <;> decide
  unfold parseRR parseWirePacketRR
  have e : ([0] : Bytes) = wire [] := rfl
  rw [e, hr]
  simp only [Res.ok_bind, readU16_be16, readU32_be32, ne_eq, not_true_eq_false, if_false, ht, hd, h11, he]
  rfl

/-- **C48 is false** also for responses with an RRSIG that becomes too long: a release build produces a proof that can not be parsed. -/
theorem C48_fails_for_long_rrsig : ∃ acc qs b proof ttl, Run false ⟨ascii "a."⟩ 16 acc [] qs b ∧ (∀ m ∈ acc, m.length ≤ 65535) ∧
    b.finish = some (proof, ttl) ∧ parseRRStream false proof = .err () := by
  have hz : (List.replicate 65445 (0 : UInt8)).length = 65445 := List.length_replicate
  generalize List.replicate 65445 (0 : UInt8) = z at hz
  obtain ⟨m1, t1, h1⟩ := accepts_long hz
  obtain ⟨m2, t2, h2⟩ := accepts_txt (b := ⟨writeRR (.rrsig (longSig z)) 60, t1, [longSigner], 2, 3⟩) (Nat.succ_pos 1)
  obtain ⟨m3, t3, h3⟩ := accepts_txt (b := ⟨writeRR (.rrsig (longSig z)) 60 ++ writeRR exTxt 300, t2, [longSigner], 1, 3⟩) (Nat.succ_pos 0)
  refine ⟨_, _, _, _, _, .accept (.accept (.accept .new h1) h2) h3, ?_, rfl, ?_⟩
  · intro m hm
    simp only [List.nil_append, List.cons_append, List.mem_cons, List.not_mem_nil, or_false] at hm
    rcases hm with rfl | rfl | rfl
    · rw [(longResponse_oversize hz).1]; decide
    · decide +kernel
    · decide +kernel
  · obtain ⟨tail, e⟩ := writeRR_longSig hz
    rw [e]
    refine parseRRStream_err (by simp) ?_
    simp only [List.append_assoc]
    exact parse_short_rrsig false _

end Dnssec.Props
