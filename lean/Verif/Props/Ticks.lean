import Verif.Proofs.Ticks
import Verif.Proofs.Counted
import Verif.Props.Query

/-! # C78: the work and the output of the parser are linear in the size of its input -/

namespace Dnssec.Props

open Dnssec Spec

variable {dbg : Bool} {name : Name} {ty : UInt16}

/-- **C78.** reading a name touches at most 1276 octets, whatever the message and the pointers in it. -/
theorem C78_name_work (msg inp : Bytes) : (readNameT msg inp).res = readName msg inp ∧ (readNameT msg inp).ticks ≤ 1276 :=
  ⟨readNameT_res msg inp, readNameT_ticks msg inp⟩

/-- A pointer to itself is followed 255 times. -/
example : readName [0xc0, 0] [0xc0, 0] = .err () ∧ (readNameT [0xc0, 0] [0xc0, 0]).ticks = 511 := by decide +kernel

/-- **C78.** `parse_rr_stream` touches at most 979 octets for each octet of its input, and 10754 more, whether it returns `Ok` or `Err` (or
panics); it returns at most one record for every 11 octets. -/
theorem C78_stream_work (dbg : Bool) (inp : Bytes) :
    (parseRRStreamT dbg inp).res = parseRRStream dbg inp ∧ (parseRRStreamT dbg inp).ticks ≤ 979 * inp.length + 10754 ∧
    ∀ rrs, parseRRStream dbg inp = .ok rrs → 11 * rrs.length ≤ inp.length :=
  ⟨parseRRStreamT_res dbg inp, parseRRStreamT_ticks dbg inp, fun _ h => stream_count h⟩

example : ∃ rrs, parseRRStream true (writeRR exTxt 300 ++ writeRR exSig 60) = .ok rrs ∧ rrs.length = 2 ∧
    (parseRRStreamT true (writeRR exTxt 300 ++ writeRR exSig 60)).ticks = 130 := by
  refine ⟨[exTxt, exSig], ?_, rfl, ?_⟩ <;> decide +kernel

/-- **C78.** `handle_response` touches at most 1017 octets for each octet of the response, and 12046 more, whatever the response. -/
theorem C78_response_work (dbg : Bool) (resp proof : Bytes) (names : List Name) :
    (handleResponseT dbg resp proof names).1 = handleResponse dbg resp proof names ∧
    (handleResponseT dbg resp proof names).2 ≤ 1017 * resp.length + 12046 :=
  ⟨handleResponseT_res dbg resp proof names, (handleResponseT_ticks dbg resp proof names).2⟩

/-- **C78.** the count leaves nothing out: for a stream that is accepted, every octet of it is counted, and besides them the texts of the names
and the tables of NSEC and NSEC3 records. (With debug assertions on: with them off, octets that follow the name in the data of a CNAME, DNAME
or NS record are skipped without being looked at.) -/
theorem C78_stream_counted {inp : Bytes} {rrs : List RR} (h : parseRRStream true inp = .ok rrs) :
    inp.length + (rrs.map besides).sum ≤ (parseRRStreamT true inp).ticks := parseRRStreamT_counts h

/-- The count is exact here: 90 octets and three names (the owner of the TXT record, and owner and signer of the signature). -/
example : (writeRR exTxt 300 ++ writeRR exSig 60).length + (([exTxt, exSig] : List RR).map besides).sum = 130 := by decide +kernel

/-- **C78.** likewise for a response that is accepted: every octet up to the end of the authority section is counted, the texts of all names, the
tables, and the octets added to the proof. -/
theorem C78_response_counted {resp proof : Bytes} {names : List Name} {x : Bytes × List Name} {ttl : UInt32}
    (h : handleResponse true resp proof names = (x, .ok ttl)) :
    ∃ flags an ns ar qname qtype qclass body mid rest ans auth, IsMessage resp 0 flags 1 an ns ar qname qtype qclass body ∧
      Records true resp an.toNat body ans mid ∧ Records true resp ns.toNat mid auth rest ∧
      resp.length + qname.bytes.length + ((ans ++ auth).map fun r => besides r.1).sum +
        (encode (ans ++ auth.filter fun r => denialRecord r.1)).length ≤ (handleResponseT true resp proof names).2 + rest.length :=
  handleResponseT_counts h

example : (handleResponse true (exResponse 0x81a0 2 (writeRR exTxt 300 ++ writeRR exSig 60)) [] []).2 = .ok 60 ∧
    (handleResponseT true (exResponse 0x81a0 2 (writeRR exTxt 300 ++ writeRR exSig 60)) [] []).2 = 121 + 14 + 40 + 90 := by decide +kernel

/-- **C78.** `process_response` makes the proof longer by at most 38 octets for each octet of the response, also if it returns `Err`. -/
theorem C78_growth (b : ProofBuilder) (resp : Bytes) :
    (b.processResponse dbg resp).1.proof.length ≤ b.proof.length + 38 * resp.length :=
  processResponse_growth b resp

/-- **C78.** however a builder is used, its proof is at most 38 times as long as all the responses given to it. -/
theorem C78_history {acc rej qs : List Bytes} {b : ProofBuilder} (h : Run dbg name ty acc rej qs b) :
    b.proof.length ≤ 38 * (acc ++ rej).flatten.length := run_size h

/-- The history `exRun`: 90 octets of proof from a response of 121 octets. -/
example : ((([exResponse 0x81a0 2 (writeRR exTxt 300 ++ writeRR exSig 60)] : List Bytes) ++ []).flatten).length = 121 ∧
    (writeRR exTxt 300 ++ writeRR exSig 60).length = 90 := by decide +kernel

/-- **C78.** the proof that the stream drivers return is at most 38 times as long as what they read from the server, and never longer than
24903300 octets. -/
theorem C78_driver {s s' : Stream} {fuel : Nat} {proof : Bytes} {ttl : UInt32} (hn : Obtainable name)
    (h : buildProof dbg fuel s name ty = some (s', .ok (proof, ttl))) :
    proof.length + 38 * s'.incoming.length ≤ 38 * s.incoming.length ∧ proof.length ≤ 24903300 := by
  obtain ⟨acc, qs, b, hrun, hf, hin, _, hacc⟩ := buildProof_ok hn h
  have hs := run_size hrun
  rw [List.append_nil] at hs
  have hpend := (run_inv hrun).pending
  have hb : b.proof = proof ∧ acc.length ≤ 10 := by
    unfold ProofBuilder.finish at hf
    split at hf
    · exact nomatch hf
    · rename_i hm
      simp only [Option.some.injEq, Prod.mk.injEq] at hf
      exact ⟨hf.1, by have : maxRequests = 10 := rfl; omega⟩
  obtain ⟨rfl, hten⟩ := hb
  have h1 := frames_length acc
  have h2 := flatten_length_le hacc
  have h3 : acc.length * 65535 ≤ 10 * 65535 := Nat.mul_le_mul_right _ hten
  rw [hin, List.length_append]
  exact ⟨by omega, by omega⟩

example : buildProof true 1 ⟨frame (exResponse 0x81a0 1 (writeRR exTxt 300)) ++ [1, 2, 3], 2, []⟩ ⟨ascii "a.example.com."⟩ 16 =
    some (⟨[1, 2, 3], 0, frame (queryBytes ⟨ascii "a.example.com."⟩ 16)⟩, .ok (writeRR exTxt 300, 300)) := by decide +kernel

/-! ### The factor 38 cannot be replaced by 37 -/

/-- The labels of a name of 255 characters. -/
def bigLabels : List Bytes := [List.replicate 63 97, List.replicate 63 97, List.replicate 63 97, List.replicate 62 97]

/-- The name. -/
def bigName : Name := ⟨(bigLabels.map (fun l => l ++ [46])).flatten⟩

/-- A CNAME record from the name to itself, with pointers to the question. -/
def tinyRecord : Bytes := [0xc0, 12] ++ (be16 5 ++ (be16 1 ++ (be32 60 ++ (be16 2 ++ [0xc0, 12]))))

/-- A response with `n` of them. -/
def bigResponse (n : Nat) : Bytes :=
  be16 0 ++ (be16 0x81a0 ++ (be16 1 ++ (be16 (UInt16.ofNat n) ++ (be16 0 ++ (be16 0 ++
    (wire bigLabels ++ (be16 16 ++ (be16 1 ++ (List.replicate n tinyRecord).flatten))))))))

theorem bigName_labels : HasLabels bigName bigLabels := by decide +kernel

variable {n : Nat}

theorem bigName_reads (rest : Bytes) : ReadsName (bigResponse n) (0xc0 :: 12 :: rest) bigName rest := by
  rw [← readName_reads, readName_iff]
  have e : ((0xc0 : UInt8).toNat - 192) * 256 + (12 : UInt8).toNat = 12 := by decide
  refine ⟨(bigLabels.map (fun l => l ++ [46])).flatten,
    .pointer 254 0xc0 12 _ rest (be16 16 ++ (be16 1 ++ (List.replicate n tinyRecord).flatten)) (by decide) ?_ ?_, ?_, ?_⟩
  · rw [e]
    simp only [bigResponse, List.length_append, be16_length]
    have : 1 ≤ (wire bigLabels).length := by decide +kernel
    omega
  · rw [e]
    have : (bigResponse n).drop 12 = wire bigLabels ++ (be16 16 ++ (be16 1 ++ (List.replicate n tinyRecord).flatten)) := by
      simp [bigResponse, be16]
    rw [this]
    exact Decodes_wire (bigResponse n) 254 bigLabels bigName_labels.labels _
  · rw [orRoot_flatten]
    exact text_nameText bigName_labels.labels (by rw [← bigName_labels.bytes]; exact bigName_labels.short)
  · rw [orRoot_flatten, lower_text bigName_labels.labels, bigName_labels.bytes]

theorem tinyRecord_reads (dbg : Bool) (rest : Bytes) :
    ReadsRecord dbg (bigResponse n) (tinyRecord ++ rest) (.cname ⟨bigName, bigName⟩, 60) rest := by
  refine ⟨bigName, 5, [0xc0, 12], be16 5 ++ (be16 1 ++ (be32 60 ++ (be16 2 ++ ([0xc0, 12] ++ rest)))), bigName_reads _, ?_, by decide,
    .cname _ [] _ (bigName_reads []) (fun _ => rfl)⟩
  simp only [List.append_assoc]
  rfl

theorem tinyRecords_read (dbg : Bool) : ∀ k, Records dbg (bigResponse n) k (List.replicate k tinyRecord).flatten
    (List.replicate k (.cname ⟨bigName, bigName⟩, 60)) []
  | 0 => .nil _
  | k + 1 => by
    rw [List.replicate_succ, List.flatten_cons, List.replicate_succ]
    exact .cons (tinyRecord_reads dbg _) (tinyRecords_read dbg k)

theorem bigResponse_contributes (h1 : 1 ≤ n) (h2 : n ≤ 65535) :
    Contributes dbg (bigResponse n) (List.replicate n (.cname ⟨bigName, bigName⟩, 60)) := by
  have hn : (UInt16.ofNat n).toNat = n := by simp; omega
  refine ⟨0x81a0, UInt16.ofNat n, 0, 0, bigName, 16, 1, _, [], [], List.replicate n (.cname ⟨bigName, bigName⟩, 60), [],
    ⟨_, rfl, readName_reads.mp (readName_wire _ bigName_labels _)⟩,
    by decide, by decide, by decide, by decide, by decide, by omega, ?_, .nil _, by simp⟩
  rw [hn]
  exact tinyRecords_read dbg n

theorem bigResponse_length (n : Nat) : (bigResponse n).length = 14 * n + 272 := by
  have e1 : (wire bigLabels).length = 256 := by decide +kernel
  have e2 : ((List.replicate n tinyRecord).flatten).length = 14 * n := by
    rw [List.length_flatten, List.map_replicate, List.sum_replicate_nat]
    have : tinyRecord.length = 14 := by decide
    rw [this]; omega
  simp only [bigResponse, List.length_append, be16_length, e1, e2]
  omega

/-- **C78.** the bound of `C78_growth` is nearly attained: for every `n` from 1 to 65535 there is a response of 14 `n` + 272 octets that makes the
proof of every builder that waits for a response longer by 522 `n` octets (so 37 instead of 38 would not do, for `n` = 3000, say). -/
theorem C78_growth_attained {b : ProofBuilder} (hp : 0 < b.pending) (h1 : 1 ≤ n) (h2 : n ≤ 65535) :
    ∃ resp b' more, resp.length = 14 * n + 272 ∧ b.processResponse dbg resp = (b', .ok more) ∧
      b'.proof.length = b.proof.length + 522 * n := by
  have hc : Contributes dbg (bigResponse n) (List.replicate n (.cname ⟨bigName, bigName⟩, 60)) := bigResponse_contributes h1 h2
  obtain ⟨b', more, h⟩ := ProofBuilder.processResponse_accepts hp hc
  refine ⟨bigResponse n, b', more, bigResponse_length n, h, ?_⟩
  · obtain ⟨recs, ttl, new, _, hc', _, _, _, _, e, _⟩ := ProofBuilder.processResponse_ok h
    obtain rfl := contributes_unique hc' hc
    have hw : (writeRR (.cname ⟨bigName, bigName⟩) 60).length = 522 := by decide +kernel
    rw [e]
    simp only [encode, List.length_append, List.length_flatten, List.map_replicate, List.sum_replicate_nat, hw]
    omega

example : 14 * 3000 + 272 = 42272 ∧ 37 * 42272 < 522 * 3000 := by decide

end Dnssec.Props
