import Verif.Proofs.Parsed
import Verif.Proofs.Reads
import Verif.Proofs.BitmapMeaning
import Verif.Proofs.Decide
import Verif.Proofs.RoundTrip

/-! # C03-C10: wire format -/

namespace Dnssec.Props

open Dnssec Spec

/-- A TXT record used in the examples below. -/
def exTxt : RR := .txt ⟨⟨ascii "a.example.com."⟩, ascii "hello"⟩

/-- An RRSIG record used in the examples below. -/
def exSig : RR :=
  .rrsig ⟨⟨ascii "a.example.com."⟩, 16, 8, 3, 300, 1700000000, 1600000000, 4711, ⟨ascii "example.com."⟩, [1, 2, 3]⟩

theorem exTxt_encodable : Encodable exTxt :=
  ⟨⟨[ascii "a", ascii "example", ascii "com"], by decide⟩, by simp [exTxt, rdataNames],
    by intro t h; simp only [exTxt, RR.txt.injEq] at h; subst h; decide, by decide, by simp [exTxt]⟩

theorem exSig_encodable : Encodable exSig :=
  ⟨⟨[ascii "a", ascii "example", ascii "com"], by decide⟩,
    by
      intro n hn
      simp only [exSig, rdataNames, List.mem_singleton] at hn
      subst hn
      exact ⟨[ascii "example", ascii "com"], by decide⟩,
    by simp [exSig], by decide, by simp [exSig]⟩

/-! ## C03 -/

/-- **C03.** For every encodable record, reading the bytes `write_rr` produces, followed by anything, inside any message
(or, with `msg = []`, in a proof stream) gives that record and TTL and leaves exactly what followed.
Missing from the full property: records that are not `Encodable`; for them it is false (see the next theorems). -/
theorem C03_write_then_parse_partial (dbg : Bool) (msg : Bytes) (rr : RR) (h : Encodable rr) (ttl : UInt32) (rest : Bytes) :
    parseWirePacketRR dbg msg (writeRR rr ttl ++ rest) = .ok ((rr, ttl), rest) :=
  parse_writeRR dbg msg rr h ttl rest

/-- The records of the examples are encodable. -/
example : Encodable exTxt ∧ Encodable exSig := ⟨exTxt_encodable, exSig_encodable⟩

/-- **C03, exact.** The encodable records are the only ones for which it holds: a record is read back from what `write_rr` produces,
leaving what followed, if and only if it is encodable. -/
theorem C03_round_trips_iff (dbg : Bool) (rr : RR) (ttl : UInt32) (rest : Bytes) :
    parseRR dbg (writeRR rr ttl ++ rest) = .ok (rr, rest) ↔ Encodable rr :=
  ⟨encodable_of_round_trip, fun h => parseRR_write dbg rr h ttl rest⟩

/-- **C03.** Everything that can be read from a proof stream can be written and read again, unless it is a TXT record with
empty data or has a name with an empty label. -/
theorem C03_parsed_records_round_trip_partial (dbg : Bool) (inp rest : Bytes) (rr : RR)
    (h : parseRR dbg inp = .ok (rr, rest)) (howner : NoEmptyLabel rr.name)
    (hinner : ∀ n ∈ rdataNames rr, NoEmptyLabel n) (htxt : ∀ t, rr = .txt t → t.data ≠ [])
    (ttl : UInt32) (more : Bytes) :
    parseRR dbg (writeRR rr ttl ++ more) = .ok (rr, more) :=
  parseRR_write dbg rr (parsed_encodable h howner hinner htxt) ttl more

/-- The hypotheses are met by the parse of the example RRSIG. -/
example : parseRR true (writeRR exSig 5 ++ [7]) = .ok (exSig, [7]) := parseRR_write true exSig exSig_encodable 5 [7]

/-- **C03 is false** for a TXT record with empty data: `write_rr` announces 0 bytes of RDATA and then writes one, so the
reader leaves an extra zero byte. -/
theorem C03_fails_for_empty_txt :
    parseRR false (writeRR (.txt ⟨⟨ascii "a."⟩, []⟩) 0) = .ok (.txt ⟨⟨ascii "a."⟩, []⟩, [0]) := by decide

/-- **C03 is false** for a name with an empty label: the record at `"a..b."` is written with a zero length byte after `a`,
which ends the name, and can not be read back. -/
theorem C03_fails_for_empty_labels :
    Obtainable ⟨ascii "a..b."⟩ ∧
    parseRR false (writeRR (.a ⟨⟨ascii "a..b."⟩, ⟨[1, 2, 3, 4], rfl⟩⟩) 0) = .err () :=
  ⟨obtainable_of (s := ascii "a..b.") (by decide), by decide⟩

/-- **C03 is false** for an NSEC3 record with a salt of 256 bytes (its length is written modulo 256): whatever is read
back is not the record. -/
theorem C03_fails_for_long_salt (m : NSecTypeMask) (ttl : UInt32) (rest : Bytes) (dbg : Bool) :
    parseRR dbg (writeRR (.nsec3 ⟨⟨ascii "a."⟩, 1, 0, 0, List.replicate 256 7, [], m⟩) ttl)
      ≠ .ok (.nsec3 ⟨⟨ascii "a."⟩, 1, 0, 0, List.replicate 256 7, [], m⟩, rest) := by
  intro h
  obtain ⟨ttl, h⟩ := parseRR_ok h
  obtain ⟨_, _, _, _, _, _, _, h4⟩ := parseWirePacketRR_ok h
  have := ((readRData_props h4).2.2.2.1 _ rfl).1
  rw [List.length_replicate] at this
  omega

/-! ## C04 -/

/-- **C04.** `parse_rr_stream` inverts a sequence of `write_rr` calls, for encodable records (see C03 for the others). -/
theorem C04_stream_of_writes_partial (dbg : Bool) (rrs : List (RR × UInt32)) (h : ∀ p ∈ rrs, Encodable p.1) :
    parseRRStream dbg (rrs.map (fun p => writeRR p.1 p.2)).flatten = .ok (rrs.map Prod.fst) := by
  induction rrs with
  | nil => rfl
  | cons p rrs ih =>
    have h1 := parseRR_write dbg p.1 (h p (by simp)) p.2 ((rrs.map (fun p => writeRR p.1 p.2)).flatten)
    rw [List.map_cons, List.flatten_cons, parseRRStream_step h1, ih (fun q hq => h q (by simp [hq]))]
    rfl

example : parseRRStream true ([(exTxt, 1), (exSig, 2)].map (fun p => writeRR p.1 p.2)).flatten = .ok [exTxt, exSig] :=
  C04_stream_of_writes_partial true [(exTxt, 1), (exSig, 2)] (by
    intro p hp
    simp only [List.mem_cons, List.not_mem_nil, or_false] at hp
    rcases hp with rfl | rfl
    · exact exTxt_encodable
    · exact exSig_encodable)

/-- **C04.** A stream is accepted exactly when it is cut into pieces each of which is one record: every byte is consumed by
some record (`Spec.ReadsRecord`, without a message to point into), and the result is the list of these records in order. -/
theorem C04_stream_iff_pieces (dbg : Bool) (inp : Bytes) (rrs : List RR) :
    parseRRStream dbg inp = .ok rrs ↔
      ∃ ps : List (Bytes × RR), inp = (ps.map Prod.fst).flatten ∧ rrs = ps.map Prod.snd ∧
        ∀ p ∈ ps, ∃ ttl, ReadsRecord dbg [] p.1 (p.2, ttl) [] := by
  simp only [parseRRStream_iff, parseRR_iff]

/-- **C04.** Streams can be concatenated. -/
theorem C04_concatenation (dbg : Bool) (a b : Bytes) (xs ys : List RR) (ha : parseRRStream dbg a = .ok xs)
    (hb : parseRRStream dbg b = .ok ys) : parseRRStream dbg (a ++ b) = .ok (xs ++ ys) := by
  rw [parseRRStream_iff] at *
  obtain ⟨ps, rfl, rfl, h1⟩ := ha
  obtain ⟨qs, rfl, rfl, h2⟩ := hb
  refine ⟨ps ++ qs, by simp, by simp, ?_⟩
  intro p hp
  rcases List.mem_append.mp hp with hp | hp
  · exact h1 p hp
  · exact h2 p hp

example : parseRRStream true (writeRR exTxt 1) = .ok [exTxt] ∧ parseRRStream true (writeRR exSig 2 ++ writeRR exTxt 3) = .ok [exSig, exTxt] := by
  decide +kernel

/-- **C04 is false** for a record that is not encodable: the stream made of an empty TXT record and another record is
rejected. -/
theorem C04_fails_after_empty_txt :
    parseRRStream false (writeRR (.txt ⟨⟨ascii "a."⟩, []⟩) 0 ++ writeRR exTxt 0) = .err () := by decide

/-! ## C05 -/

/-- **C05.** The two bytes before the RDATA are the big-endian number of bytes that follow.
Missing: TXT records with empty data and RDATA longer than 65535 bytes; for both it is false. -/
theorem C05_length_prefix_partial (rr : RR) (htxt : ∀ t, rr = .txt t → t.data ≠ [])
    (hsize : rr.writeData.length ≤ 65537) :
    ∃ hi lo data, rr.writeData = hi :: lo :: data ∧ hi.toNat * 256 + lo.toNat = data.length := by
  have hw := writeData_eq rr htxt
  rw [hw] at hsize ⊢
  refine ⟨_, _, rdata rr, rfl, ?_⟩
  simp only [List.length_append, be16_length] at hsize
  simp only [UInt8.toNat_ofNat', UInt16.toNat_ofNat']
  omega

example : (∀ t, exTxt = .txt t → t.data ≠ []) ∧ exTxt.writeData = [0, 6, 5, 104, 101, 108, 108, 111] :=
  ⟨exTxt_encodable.txtNonempty, by decide⟩

/-- **C05, exact.** The two bytes are that number if and only if the record is not a TXT record with empty data and has at most 65535
bytes of RDATA. -/
theorem C05_length_prefix_iff (rr : RR) :
    (∃ hi lo data, rr.writeData = hi :: lo :: data ∧ hi.toNat * 256 + lo.toNat = data.length) ↔
      (∀ t, rr = .txt t → t.data ≠ []) ∧ (rdata rr).length ≤ 65535 := by
  constructor
  · rintro ⟨hi, lo, data, h1, h2⟩
    have htxt : ∀ t, rr = .txt t → t.data ≠ [] := by
      rintro ⟨n, d⟩ rfl h0
      simp only at h0
      subst h0
      have : (RR.txt ⟨n, []⟩).writeData = [0, 0, 0] := by simp only [RR.writeData, Txt.writeData]; decide
      rw [this] at h1
      simp only [List.cons.injEq] at h1
      obtain ⟨rfl, rfl, rfl⟩ := h1
      simp at h2
    refine ⟨htxt, ?_⟩
    have e := congrArg List.length h1
    rw [writeData_eq rr htxt] at e
    simp only [List.length_append, be16_length, List.length_cons] at e
    have := hi.toNat_lt
    have := lo.toNat_lt
    omega
  · rintro ⟨h1, h2⟩
    refine C05_length_prefix_partial rr h1 ?_
    rw [writeData_eq rr h1]
    simp only [List.length_append, be16_length]
    omega

/-- **C05 is false** for empty TXT data: length 0, then one byte. -/
theorem C05_fails_for_empty_txt (n : Name) : (RR.txt ⟨n, []⟩).writeData = [0, 0, 0] := by
  simp only [RR.writeData, Txt.writeData]; decide

/-- **C05 is false** for too much data: the length is written modulo 65536. -/
theorem C05_fails_for_oversize (n : Name) (d : Bytes) (h : d.length = 65535) :
    ∃ data, (RR.tlsa ⟨n, 1, 1, 1, d⟩).writeData = 0 :: 2 :: data ∧ data.length = 65538 := by
  refine ⟨1 :: 1 :: 1 :: d, ?_, by simp [h]⟩
  simp only [RR.writeData, TLSA.writeData, h]
  rfl

/-! ## C06 -/

/-- **C06, exact.** Parsing one record (in a message or, with `msg = []`, a proof stream) panics exactly when its owner name,
type, class IN, TTL and RDATA can be delimited and the RDATA is of one of the kinds listed in `RDataPanics`:
an NSEC or NSEC3 whose type bitmap has a window reaching beyond byte 8192, or (only with debug assertions) an NS, CNAME or
DNAME with bytes after the name. -/
theorem C06_record_panics_iff (dbg : Bool) (msg inp : Bytes) :
    parseWirePacketRR dbg msg inp = .panic ↔
      ∃ name ty ttl data r1 rest, ReadsName msg inp name r1 ∧
        r1 = be16 ty ++ (be16 1 ++ (be32 ttl ++ (be16 (UInt16.ofNat data.length) ++ (data ++ rest)))) ∧ data.length ≤ 65535 ∧
        RDataPanics dbg msg ty data := by
  simp only [parseWirePacketRR_panic_iff, readName_reads]

/-- **C06.** In a release build `parse_rr_stream` panics only on inputs containing a block number and length byte that
overrun the 8192-byte mask (with at least that many bytes following).
Missing from the full property: those inputs, for which it is false. -/
theorem C06_release_no_panic_partial (inp : Bytes)
    (h : ∀ pre block len w post, inp = pre ++ block :: len :: (w ++ post) → w.length = len.toNat →
      block.toNat * 32 + len.toNat ≤ 8192) :
    parseRRStream false inp ≠ .panic := by
  intro hp
  rw [parseRRStream_panic_iff] at hp
  obtain ⟨a, b, rrs, e1, _, _, e4⟩ := hp
  obtain ⟨pre, block, len, w, post, f1, f2, f3⟩ := parseWirePacketRR_panic_contains e4
  have := h (a ++ pre) block len w post (by rw [e1, f1]; simp) f2
  omega

/-- In particular there is no panic on inputs without bytes above 248 (ASCII text, say). -/
theorem C06_release_no_panic_small_bytes_partial (inp : Bytes) (h : ∀ b ∈ inp, b.toNat ≤ 248) :
    parseRRStream false inp ≠ .panic := by
  apply C06_release_no_panic_partial
  intro pre block len w post e hl
  have h1 := h block (by rw [e]; simp)
  have h2 := len.toNat_lt
  omega

/-- The hypothesis is met by a stream containing an actual record. -/
example : (∀ b ∈ writeRR exTxt 300, b.toNat ≤ 248) ∧ parseRRStream false (writeRR exTxt 300) = .ok [exTxt] := by
  refine ⟨by decide, ?_⟩
  have := C04_stream_of_writes_partial false [(exTxt, 300)] (by
    intro p hp; rw [List.mem_singleton] at hp; subst hp; exact exTxt_encodable)
  simpa using this

/-- An NSEC record at the root whose bitmap has window 255 with 33 bytes. -/
def panickingNsec : Bytes :=
  [0, 0, 47, 0, 1, 0, 0, 0, 0, 0, 36, 0, 255, 33] ++ List.replicate 33 0

/-- **C06 is false:** 47 bytes make `parse_rr_stream` panic, in release and debug builds. -/
theorem C06_fails_nsec_window : ∀ dbg, parseRRStream dbg panickingNsec = .panic := by
  intro dbg
  rw [parseRRStream_panic_iff]
  refine ⟨[], panickingNsec, [], rfl, by simp [panickingNsec], rfl, ?_⟩
  rw [C06_record_panics_iff]
  refine ⟨⟨ascii "."⟩, 47, 0, 0 :: 255 :: 33 :: List.replicate 33 0, panickingNsec.drop 1, [], ?_,
    by decide, by decide, ?_⟩
  · exact readName_reads.mp (readName_wire [] (n := ⟨ascii "."⟩) (ls := []) (by decide) _)
  · exact .nsec _ (255 :: 33 :: List.replicate 33 0) ⟨ascii "."⟩
      (readName_reads.mp (readName_wire [] (n := ⟨ascii "."⟩) (ls := []) (by decide) _)) (.here 255 33 _ (by decide) (by decide))

/-- **C06 is false** in debug builds also for a CNAME with a byte after its target name. -/
theorem C06_fails_debug_trailing : parseRRStream true [0, 0, 5, 0, 1, 0, 0, 0, 0, 0, 2, 0, 0] = .panic := by decide

/-! ## C07 -/

/-- **C07, exact.** Reading a name in a message succeeds exactly when it decodes (`Spec.Decodes`: labels and pointers into
the message, at most 255 pointers) to a text that satisfies the rules for names; the result is that text in lower case. -/
theorem C07_read_name_iff (msg inp : Bytes) (n : Name) (rest : Bytes) :
    readName msg inp = .ok (n, rest) ↔
      ∃ t, Decodes msg 255 inp t rest ∧ NameText (orRoot t) ∧ n.bytes = (orRoot t).map foldCase := readName_reads

/-- **C07.** Reading a name never panics, whatever the message. -/
theorem C07_never_panics (msg inp : Bytes) : readName msg inp ≠ .panic := readName_no_panic msg inp

/-- **C07.** In a proof stream no name uses a pointer: an accepted name is a plain sequence of length-prefixed labels
(lengths below 192) and a zero byte, and its text is the labels joined with dots. -/
theorem C07_stream_names_are_plain (inp : Bytes) (n : Name) (rest : Bytes) (h : readName [] inp = .ok (n, rest)) :
    ∃ ls : List Bytes, (∀ l ∈ ls, l ≠ [] ∧ l.length < 192) ∧ inp = wire ls ++ rest ∧
      n.bytes = (text ls).map foldCase := by
  rw [C07_read_name_iff] at h
  obtain ⟨t, h1, _, h3⟩ := h
  obtain ⟨ls, e1, e2, e3⟩ := Decodes_nil_labels rfl (by decide) h1
  exact ⟨ls, e1, e2, by rw [h3, e3, orRoot_flatten]⟩

/-- **C07.** A name in a proof stream in which a pointer follows some labels is rejected. -/
theorem C07_stream_pointer_rejected (ls : List Bytes) (hls : ∀ l ∈ ls, l ≠ [] ∧ l.length < 192) (hi : UInt8)
    (hhi : 192 ≤ hi.toNat) (rest : Bytes) :
    readName [] ((ls.map (fun l => UInt8.ofNat l.length :: l)).flatten ++ hi :: rest) = .err () := by
  have hno : ∀ (ls : List Bytes), (∀ l ∈ ls, l ≠ [] ∧ l.length < 192) → ∀ t r,
      ¬ Decodes [] 255 ((ls.map (fun l => UInt8.ofNat l.length :: l)).flatten ++ hi :: rest) t r := by
    intro ls
    induction ls with
    | nil =>
      intro _ t r h
      obtain ⟨ms, e1, e2, _⟩ := Decodes_nil_labels rfl (by decide) h
      cases ms with
      | nil =>
        simp only [wire, List.map_nil, List.flatten_nil, List.nil_append, List.cons_append, List.cons.injEq] at e2
        rw [e2.1] at hhi; simp at hhi
      | cons m ms =>
        simp only [wire, List.map_nil, List.flatten_nil, List.nil_append, List.map_cons, List.flatten_cons,
          List.cons_append, List.cons.injEq] at e2
        have := (e1 m (by simp)).2
        rw [e2.1, UInt8.toNat_ofNat'] at hhi
        omega
    | cons l ls ih =>
      intro hls t r h
      obtain ⟨hl1, hl2⟩ := hls l (by simp)
      have hpos : 0 < l.length := List.length_pos_iff.mpr hl1
      have hlen : (UInt8.ofNat l.length).toNat = l.length := by rw [UInt8.toNat_ofNat']; omega
      obtain ⟨ms, e1, e2, e0⟩ := Decodes_nil_labels rfl (by decide) h
      clear e0
      cases ms with
      | nil =>
        simp only [wire, List.map_cons, List.map_nil, List.flatten_nil, List.flatten_cons, List.nil_append,
          List.cons_append, List.cons.injEq] at e2
        have := congrArg UInt8.toNat e2.1
        rw [hlen, UInt8.toNat_zero] at this
        omega
      | cons m ms =>
        obtain ⟨hm1, hm2⟩ := e1 m (by simp)
        simp only [wire, List.map_cons, List.flatten_cons, List.cons_append, List.cons.injEq, List.append_assoc] at e2
        have hlm : l.length = m.length := by
          have := congrArg UInt8.toNat e2.1
          rw [hlen, UInt8.toNat_ofNat'] at this; omega
        obtain ⟨rfl, e3⟩ := List.append_inj e2.2 hlm
        apply ih (fun x hx => hls x (by simp [hx])) ((ms.map (fun l => l ++ [46])).flatten) r
        have hd : Decodes [] 255 (wire ms ++ r) ((ms.map (fun l => l ++ [46])).flatten) r := by
          replace e1 : ∀ x ∈ ms, x ≠ [] ∧ x.length < 192 := fun x hx => e1 x (by simp [hx])
          clear e3 e2 ih h hls
          induction ms with
          | nil => exact Decodes.stop 255 r
          | cons x xs ihx =>
            have a := ihx (fun y hy => e1 y (by simp [hy]))
            obtain ⟨b1, b2⟩ := e1 x (by simp)
            have := Decodes.label (msg := []) 255 (UInt8.ofNat x.length) x _ _ r b1
              (by rw [UInt8.toNat_ofNat']; omega) (Or.inl (by rw [UInt8.toNat_ofNat']; omega)) a
            simpa [wire, List.append_assoc] using this
        have e4 : (ls.map (fun l => UInt8.ofNat l.length :: l)).flatten ++ hi :: rest = wire ms ++ r := by
          rw [e3]; simp [wire]
        rw [e4]; exact hd
  cases hr : readName [] ((ls.map (fun l => UInt8.ofNat l.length :: l)).flatten ++ hi :: rest) with
  | ok v =>
    obtain ⟨n, r⟩ := v
    rw [readName_iff] at hr
    obtain ⟨t, h1, _⟩ := hr
    exact absurd h1 (hno ls hls t r)
  | err e => rfl
  | panic => exact absurd hr (readName_no_panic _ _)

/-- **C07.** An uncompressed name decodes to its labels joined with dots, in every message. -/
theorem C07_plain_names_decode (msg : Bytes) (ls : List Bytes) (h : ∀ l ∈ ls, Label l) (hs : (text ls).length ≤ 255)
    (rest : Bytes) : readName msg (wire ls ++ rest) = .ok (⟨text ls⟩, rest) :=
  readName_wire msg ⟨h, rfl, hs⟩ rest

/-- A message with a name at offset 0 and a compressed name `b.` + pointer to it. -/
example : readName ([1, 97, 0] ++ [1, 98, 192, 0, 9]) [1, 98, 192, 0, 9] = .ok (⟨ascii "b.a."⟩, [9]) ∧
    readName [] [1, 98, 192, 0, 9] = .err () ∧
    -- a pointer loop is rejected after 255 jumps
    readName [192, 0] [192, 0] = .err () := by decide +kernel

/-! ## C08 -/

/-- **C08.** `from_types(ts).contains_type(t)` exactly when `t ∈ ts`. -/
theorem C08_membership (ts : List UInt16) (t : UInt16) : (NSecTypeMask.fromTypes ts).containsType t = true ↔ t ∈ ts := by
  unfold NSecTypeMask.fromTypes
  rw [containsType_foldl, containsType_new]; simp

/-- **C08.** `new()` contains nothing. -/
theorem C08_new_is_empty (t : UInt16) : NSecTypeMask.new.containsType t = false := containsType_new t

example : (NSecTypeMask.fromTypes [1, 46, 65535]).containsType 46 = true ∧
    (NSecTypeMask.fromTypes [1, 46, 65535]).containsType 47 = false := by
  constructor
  · exact (C08_membership _ _).mpr (by decide)
  · rw [← Bool.not_eq_true, C08_membership]; decide

/-! ## C09 -/

/-- **C09.** Reading the written bitmap gives the same mask. -/
theorem C09_round_trip (m : NSecTypeMask) : readNsecTypesBitmap (writeNsecTypesBitmap m.bytes.1) = .ok m :=
  readNsecTypesBitmap_write m

/-- **C09.** The written bitmap has the announced length. -/
theorem C09_length (m : NSecTypeMask) :
    (nsecTypesBitmapLen m.bytes.1).toNat = (writeNsecTypesBitmap m.bytes.1).length := by
  rw [nsecTypesBitmapLen_eq, UInt16.toNat_ofNat']
  have := writeNsecTypesBitmap_length_le m
  omega

/-- **C09.** The written bitmap is canonical: windows in increasing order, 1 to 32 bytes, last byte non-zero; and its bits are
exactly the types in the mask. -/
theorem C09_canonical (m : NSecTypeMask) : ∃ ws, writeNsecTypesBitmap m.bytes.1 = windows ws ∧ CanonicalWindows ws ∧
    ∀ t : UInt16, m.containsType t = true ↔ BitmapHas ws t.toNat := by
  have hm := m.bytes.2
  obtain ⟨h1, h2, _⟩ := chunks32_props 256 m.bytes.1 m.bytes.1.length (by omega) (Nat.le_refl _)
  obtain ⟨ws, e1, e2, _⟩ := writeChunks_windows (chunks32 m.bytes.1.length m.bytes.1) 0 h2 (by omega)
  refine ⟨ws, by rw [writeNsecTypesBitmap_eq, e1], e2, ?_⟩
  obtain ⟨m', f1, f2⟩ := bitmap_meaning ws (e2.increasing.imp (fun h => Nat.ne_of_lt h))
    (fun w hw => ⟨e2.small w hw, (e2.length w hw).2⟩)
  have hr := readNsecTypesBitmap_write m
  rw [writeNsecTypesBitmap_eq, e1, f1] at hr
  simp only [Res.ok.injEq] at hr
  subst hr
  exact f2

/-- **C09.** Reading: any list of windows with distinct numbers and at most 32 bytes each is read as the set of types whose bits
are set (also when it is not canonical). -/
theorem C09_read_meaning (ws : List (Nat × Bytes)) (hd : ws.Pairwise (fun a b => a.1 ≠ b.1))
    (hw : ∀ w ∈ ws, w.1 < 256 ∧ w.2.length ≤ 32) :
    ∃ m, readNsecTypesBitmap (windows ws) = .ok m ∧ ∀ t : UInt16, m.containsType t = true ↔ BitmapHas ws t.toNat :=
  bitmap_meaning ws hd hw

/-- RFC 4034 4.3: `A MX RRSIG NSEC TYPE1234`. -/
example : BitmapHas [(0, [0x40, 0x01, 0, 0, 0, 0x03]), (4, List.replicate 26 0 ++ [0x20])] 1234 ∧
    ¬ BitmapHas [(0, [0x40, 0x01, 0, 0, 0, 0x03]), (4, List.replicate 26 0 ++ [0x20])] 2 := by
  constructor
  · exact ⟨(4, List.replicate 26 0 ++ [0x20]), by simp, by decide, 0x20, by decide, by decide⟩
  · rintro ⟨w, hw, e, b, h1, h2⟩
    simp only [List.mem_cons, List.not_mem_nil, or_false] at hw
    rcases hw with rfl | rfl
    · simp at h1; subst h1; revert h2; decide
    · simp at e

/-! ## C10 -/

/-- **C10.** TXT RDATA is read as the concatenation of its character-strings. -/
theorem C10_read_iff (name : Name) (data : Bytes) (t : Txt) :
    Txt.read name data = .ok t ↔
      t.name = name ∧ ∃ ss, data = charStrings ss ∧ (∀ s ∈ ss, s.length ≤ 255) ∧ t.data = ss.flatten := by
  unfold Txt.read
  constructor
  · intro h
    cases hr : txtReadLoop data.length data [] with
    | ok d =>
      rw [hr] at h
      simp only [Res.map, Res.ok.injEq] at h
      subst h
      refine ⟨rfl, ?_⟩
      rw [txtReadLoop_iff _ _ _ _ (Nat.le_refl _)] at hr
      simpa using hr
    | err e => rw [hr] at h; simp at h
    | panic => rw [hr] at h; simp at h
  · rintro ⟨rfl, ss, h1, h2, h3⟩
    have := (txtReadLoop_iff data.length data [] t.data (Nat.le_refl _)).mpr ⟨ss, h1, h2, by simpa using h3⟩
    rw [this]; rfl

/-- **C10.** Otherwise reading fails (it does not panic): that is, when some length byte overruns the data. -/
theorem C10_read_fails (name : Name) (data : Bytes) (h : ¬ ∃ ss, data = charStrings ss ∧ ∀ s ∈ ss, s.length ≤ 255) :
    Txt.read name data = .err () := by
  cases hr : Txt.read name data with
  | ok t => rw [C10_read_iff] at hr; obtain ⟨_, ss, h1, h2, _⟩ := hr; exact absurd ⟨ss, h1, h2⟩ h
  | err e => rfl
  | panic =>
    unfold Txt.read at hr
    rw [Res.map_panic_iff] at hr
    exact absurd hr (txtReadLoop_no_panic _ _ _)

/-- **C10.** Non-empty data is written (after the two length bytes) as maximal character-strings: 255 bytes each except the last,
which has 1 to 255. -/
theorem C10_write (t : Txt) (h : t.data ≠ []) : ∃ hi lo full last, t.writeData = hi :: lo :: charStrings (full ++ [last]) ∧
    (full ++ [last]).flatten = t.data ∧ (∀ s ∈ full, s.length = 255) ∧ 1 ≤ last.length ∧ last.length ≤ 255 := by
  have hw := writeData_eq (.txt t) (by intro t' e; simp only [RR.txt.injEq] at e; subst e; exact h)
  have ht : t.writeData = (RR.txt t).writeData := rfl
  rw [ht, hw, rdata_txt_nonempty t h]
  obtain ⟨full, last, e, r⟩ := txtV_charStrings _ _ rfl h
  exact ⟨_, _, full, last, by rw [e]; rfl, r⟩

example : Txt.read ⟨ascii "a."⟩ [2, 104, 105, 1, 33] = .ok ⟨⟨ascii "a."⟩, ascii "hi!"⟩ ∧
    Txt.read ⟨ascii "a."⟩ [3, 104, 105] = .err () ∧
    charStrings [ascii "hi", ascii "!"] = [2, 104, 105, 1, 33] := by decide

end Dnssec.Props
