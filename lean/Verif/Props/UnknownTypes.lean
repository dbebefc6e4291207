import Verif.Spec.UnknownTypes
import Verif.Props.Records
import Verif.Props.Leftover
import Verif.Props.PlainMessage
import Verif.Props.KeyTags

/-! # C109: records of other types -/

namespace Dnssec.Props

open Dnssec Dnssec.Spec

variable {dbg : Bool} {p : Platform} {fuel : Nat} {inp : List RR} {v : Verified} {z : Name} {owner : Name} {ty cls : UInt16} {ttl : UInt32}
  {data : Bytes}

/-- **C109 is false** for proofs: a record of another type anywhere in a proof makes all of it unreadable, whatever comes before and after it. -/
theorem C109_fails_in_every_proof {before record rest : Bytes} {rrs : List RR} (hb : parseRRStream dbg before = .ok rrs)
    (h : AnyRecord [] record owner ty cls ttl data rest) (ht : ty.toNat ∉ knownTypes) : parseRRStream dbg (before ++ record) = .err () := by
  have he : parseRR dbg record = .err () := by
    have := C59_unknown_type dbg [] record owner ty cls _ h.2 ht
    unfold parseRR
    rw [this]
    rfl
  have hne : record ≠ [] := by
    rintro rfl
    have := readName_reads.mpr h.2
    rw [show readName [] [] = .err () from by decide] at this
    cases this
  rw [parseRRStream_iff] at hb
  obtain ⟨ps, rfl, e, h1⟩ := hb
  clear e
  induction ps with
  | nil => exact parseRRStream_err hne he
  | cons q ps ih =>
    have hp := parseRR_append (h1 q (by simp)) ((ps.map Prod.fst).flatten ++ record)
    rw [List.map_cons, List.flatten_cons, List.append_assoc, parseRRStream_step hp, List.nil_append, ih (fun q hq => h1 q (by simp [hq]))]
    rfl

/-- **C109 is false** for responses: one with a record of another type anywhere in the answer or authority section is rejected by every builder. -/
theorem C109_fails_in_every_response {resp body at_ rest : Bytes} {an ns k : Nat} {recs : List (RR × UInt32)} (hg : GoodHeader resp an ns body)
    (hk : k < an + ns) (hr : Records dbg resp k body recs at_) (h : AnyRecord resp at_ owner ty cls ttl data rest)
    (ht : ty.toNat ∉ knownTypes) (b : ProofBuilder) : ∃ b', b.processResponse dbg resp = (b', .err ()) := by
  by_cases hp : b.pending = 0
  · exact ⟨b, C46_rejected_iff.mpr (.inl ⟨hp, rfl⟩)⟩
  have hu : Unreadable dbg resp at_ := unreadable_iff.mpr (C59_unknown_type dbg resp at_ owner ty cls _ h.2 ht)
  by_cases hka : k < an
  · exact ⟨_, C46_rejected_iff.mpr (.inr ⟨by omega, _, .answer hg hka hr hu, rfl⟩)⟩
  · obtain ⟨l, rfl⟩ : ∃ l, k = an + l := ⟨k - an, by omega⟩
    obtain ⟨r1, r2, mid, h1, h2⟩ := records_split hr
    exact ⟨_, C46_rejected_iff.mpr (.inr ⟨by omega, _, .authority hg h1 (by omega) h2 hu, rfl⟩)⟩

/-- **C109 is false** for signatures: one over records of another type, which cannot be in the proof with it, makes every proof that gets to the zone that made it
unacceptable (unless it is good for no records at all, or of an algorithm that is not supported). -/
theorem C109_fails_for_signatures (hz : Reached (codeCheck p) p inp z) {s : RRSig} (hs : RR.rrsig s ∈ inp) (hk : s.keyName = z)
    (ht : s.ty.toNat ∉ knownTypes) (hsup : Supported s.alg) (hno : ¬ (codeCheck p).good s (keysAt inp z) []) :
    verifyRRStream dbg p fuel inp ≠ some (.ok v) := by
  have hkn : ∀ r : RR, r.ty.toNat ∈ knownTypes := fun r => by
    rw [typeNumber_eq]
    cases r <;> simp [typeNumber, knownTypes]
  have hnil : rrset inp s.name s.ty = [] := by
    rw [List.eq_nil_iff_forall_not_mem]
    intro r hr
    obtain ⟨_, _, e⟩ := mem_rrset.mp hr
    exact ht (e ▸ hkn r)
  refine C26_bad_signature z hz s hs hk ?_ (hnil ▸ hno) ?_
  · intro e
    apply ht
    rw [e]
    decide
  · intro hu
    exact ((verifyRrsig_unsupported_iff p s _ _).mp hu).2.2.2 hsup

/-- **C109 (partial).** Records of any type and class after the authority section do not matter. Missing: records in the answer and authority sections, for which it
is false. -/
theorem C109_additional_partial {b b' : ProofBuilder} {more : List Bytes} {resp record : Bytes} (h : b.processResponse dbg resp = (b', .ok more))
    (_hr : AnyRecord (resp ++ record) record owner ty cls ttl data []) : b.processResponse dbg (resp ++ record) = (b', .ok more) :=
  C108_rest_ignored h record

/-- The response to a query for the text records at `a.example.com.`, an alias of `b.example.com.`, which has none: the alias, and (RFC 2308 2.2) the SOA record of
the zone, with `soa` = 1; without that record with `soa` = 0. -/
def aliasResponse (soa : UInt16) (record : Bytes) : Bytes :=
  be16 0 ++ be16 0x81a0 ++ be16 1 ++ be16 1 ++ be16 soa ++ be16 0 ++ (writeName (ascii "a.example.com.") ++ be16 16 ++ be16 1) ++
    writeRR (.cname ⟨⟨ascii "a.example.com."⟩, ⟨ascii "b.example.com."⟩⟩) 300 ++ record

/-- The SOA record of `example.com.` -/
def soaRecord : Bytes :=
  writeName (ascii "example.com.") ++ be16 6 ++ be16 1 ++ be32 300 ++ be16 22 ++ [0, 0] ++ be32 1 ++ be32 2 ++ be32 3 ++ be32 4 ++ be32 5

/-- **C109 is false** also where a correctly functioning resolver sends such records: the response with the alias alone is accepted, with the SOA record in the
authority section it is rejected. -/
theorem C109_fails_alias_without_records (dbg : Bool) :
    (exBuilder.processResponse dbg (aliasResponse 0 [])).2 = .ok [] ∧
    (exBuilder.processResponse dbg (aliasResponse 1 soaRecord)).2 = .err () ∧
    (exBuilder.processResponse dbg (aliasResponse 0 soaRecord)).2 = .ok [] := by
  cases dbg <;> decide +kernel

/-- The hypotheses are met by that response: the SOA record is the second record, after an alias that can be read. -/
example : ∃ body recs at_ rest, GoodHeader (aliasResponse 1 soaRecord) 1 1 body ∧ Records true (aliasResponse 1 soaRecord) 1 body recs at_ ∧
    AnyRecord (aliasResponse 1 soaRecord) at_ ⟨ascii "example.com."⟩ 6 1 300 ([0, 0] ++ be32 1 ++ be32 2 ++ be32 3 ++ be32 4 ++ be32 5) rest := by
  have e : readHeader (aliasResponse 1 soaRecord) =
      .ok ((1, 1), writeRR (.cname ⟨⟨ascii "a.example.com."⟩, ⟨ascii "b.example.com."⟩⟩) 300 ++ soaRecord) := by decide +kernel
  have p1 : parseWirePacketRR true (aliasResponse 1 soaRecord)
      (writeRR (.cname ⟨⟨ascii "a.example.com."⟩, ⟨ascii "b.example.com."⟩⟩) 300 ++ soaRecord) =
      .ok ((.cname ⟨⟨ascii "a.example.com."⟩, ⟨ascii "b.example.com."⟩⟩, 300), soaRecord) := by decide +kernel
  refine ⟨_, _, _, [], goodHeader_iff.mpr ⟨1, 1, e, rfl, rfl⟩, .cons (parseWirePacketRR_iff.mp p1) (.nil _), by decide, ?_⟩
  rw [← readName_reads]
  decide +kernel

/-- And by a proof: the SOA record after another record, and its signature in a proof that is accepted without it. -/
example (dbg : Bool) : AnyRecord [] soaRecord ⟨ascii "example.com."⟩ 6 1 300 ([0, 0] ++ be32 1 ++ be32 2 ++ be32 3 ++ be32 4 ++ be32 5) [] ∧
    verifyRRStream dbg wPlatform 5 wStream = some (.ok ⟨[wA "a.c."], 1000000000, 2000000000, 3600⟩) ∧
    verifyRRStream dbg wPlatform 5 (wStream ++ [wSigWith 8 [2] "c." 6 1 "c."]) = some (.err .invalid) := by
  refine ⟨⟨by decide, ?_⟩, by cases dbg <;> decide +kernel, by cases dbg <;> decide +kernel⟩
  rw [← readName_reads]
  decide +kernel

end Dnssec.Props
