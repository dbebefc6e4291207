import Verif.Spec.Fuzzing
import Verif.Proofs.Base32
import Verif.Proofs.QueryBuf
import Verif.Proofs.Server
import Verif.Proofs.Sig

/-! # Lemmas about the fuzzing builds -/

namespace Dnssec

open Spec

/-! ### Capacities -/

namespace CapVec

theorem pushAll_ok (grow : Nat → Nat) : ∀ (l : Bytes) (v : CapVec), v.data.length + l.length ≤ v.cap →
    v.pushAll grow l = ⟨v.data ++ l, v.cap⟩
  | [], v, _ => by simp [pushAll]
  | b :: l, v, h => by
    simp only [List.length_cons] at h
    have := pushAll_ok grow l ⟨v.data ++ [b], v.cap⟩ (by simp; omega)
    unfold pushAll at this ⊢
    rw [List.foldl_cons, push, if_neg (by omega), this]
    simp

end CapVec

namespace Base32

theorem chunks_count (n : Nat) (hn : 0 < n) : ∀ (f : Nat) (l : Bytes), l.length ≤ f →
    (chunks n f l).length = (l.length + (n - 1)) / n := by
  intro f
  induction f with
  | zero => intro l h; rw [chunks]; simp at h; subst h; simp only [List.length_nil, Nat.zero_add]; rw [Nat.div_eq_of_lt (by omega)]
  | succ f ih =>
    intro l h
    rw [chunks]
    split
    · next he =>
      rw [List.isEmpty_iff] at he
      subst he
      simp only [List.length_nil, Nat.zero_add]
      rw [Nat.div_eq_of_lt (by omega)]
    · next he =>
      have hl : 0 < l.length := by
        rcases l with _ | ⟨a, l⟩
        · simp at he
        · simp
      rw [List.length_cons, ih _ (by rw [List.length_drop]; omega), List.length_drop]
      by_cases hc : n ≤ l.length
      · obtain ⟨k, e⟩ := Nat.exists_eq_add_of_le hc
        rw [e, show n + k - n + (n - 1) = k + (n - 1) by omega, show n + k + (n - 1) = (k + (n - 1)) + n by omega,
          Nat.add_div_right _ hn]
      · rw [show l.length - n + (n - 1) = n - 1 by omega, Nat.div_eq_of_lt (by omega)]
        rw [show l.length + (n - 1) = (l.length - 1) + n by omega, Nat.add_div_right _ hn, Nat.div_eq_of_lt (by omega)]

theorem encodeLoopF_ok (grow : Nat → Nat) : ∀ (cs : List Bytes) (v : CapVec), v.data.length + cs.length * 8 ≤ v.cap →
    encodeLoopF grow v cs = ⟨v.data ++ (cs.map encodeChunk).flatten, v.cap⟩
  | [], v, _ => by simp [encodeLoopF]
  | c :: cs, v, h => by
    simp only [List.length_cons] at h
    have h8 : (encodeChunk c).length = 8 := encodeChunk_length c
    have := encodeLoopF_ok grow cs ⟨v.data ++ encodeChunk c, v.cap⟩ (by simp only [List.length_append, h8]; omega)
    unfold encodeLoopF at this ⊢
    rw [List.foldl_cons, CapVec.pushAll_ok grow _ _ (by rw [h8]; omega), this]
    simp

theorem encodeF_eq (grow : Nat → Nat) (data : Bytes) : encodeF grow data = .ok (encode data) := by
  have hc := chunks_count 5 (by omega) data.length data (Nat.le_refl _)
  have : encodeDataF grow data = .ok ⟨encodeData data, (data.length + 4) / 5 * 8⟩ := by
    unfold encodeDataF
    simp only
    rw [encodeLoopF_ok grow _ _ (by simp only [CapVec.withCapacity, List.length_nil]; omega)]
    simp [CapVec.withCapacity, encodeData]
  unfold encodeF
  rw [this]
  simp [CapVec.truncate, encode]

theorem decodeLoopF_ok (grow : Nat → Nat) : ∀ (cs : List Bytes) (v : CapVec), v.data.length + cs.length * 5 ≤ v.cap →
    decodeLoopF grow cs v = (decodeChunks cs).map (fun d => ⟨v.data ++ d, v.cap⟩)
  | [], v, _ => by simp [decodeLoopF, decodeChunks]
  | c :: cs, v, h => by
    simp only [List.length_cons] at h
    rw [decodeLoopF, decodeChunks]
    cases chunkValues c with
    | none => rfl
    | some vals =>
      have h5 : (decodeChunk vals).length = 5 := decodeChunk_length vals
      simp only
      rw [CapVec.pushAll_ok grow _ _ (by rw [h5]; omega),
        decodeLoopF_ok grow cs _ (by simp only [List.length_append, h5]; omega)]
      cases decodeChunks cs <;> simp

theorem decodeF_eq (grow : Nat → Nat) (data : Bytes) :
    decodeF grow data = match decode data with | some d => .ok d | none => .err () := by
  have hc := chunks_count 8 (by omega) data.length data (Nat.le_refl _)
  unfold decodeF decode
  split
  · rfl
  · unfold decodeDataF decodeData
    simp only
    rw [decodeLoopF_ok grow _ _ (by simp only [CapVec.withCapacity, List.length_nil]; omega)]
    cases decodeChunks (chunks 8 data.length data) with
    | none => rfl
    | some ret =>
      simp only [Option.map_some, CapVec.withCapacity, List.nil_append, if_true, CapVec.truncate]
      split <;> rfl

end Base32

/-! ### Signatures -/

theorem checkSigF_eq (p : Platform) (sig : RRSig) (key : DnsKey) (msg : Bytes) :
    checkSigF p sig key msg = checkSig (laxPlatform p) sig key msg := by
  unfold checkSigF checkSig laxPlatform
  simp only
  by_cases h1 : sig.alg = 8 ∨ sig.alg = 10
  · have : sig.alg = 8 ∨ sig.alg = 10 ∨ sig.alg = 13 ∨ sig.alg = 14 ∨ sig.alg = 15 := by
      rcases h1 with h | h <;> simp [h]
    rw [if_pos h1, if_pos h1, if_pos this]
    cases bytesToRsaPk key.pubkey with
    | none => rfl
    | some ne =>
      simp only
      by_cases hs : sig.signature.head? = some 1
      · simp [hs]
      · simp [hs, show (sig.signature.head? == some 1) = false by simpa using hs]
  · rw [if_neg h1, if_neg h1]
    by_cases h2 : sig.alg = 13 ∨ sig.alg = 14
    · have : sig.alg = 8 ∨ sig.alg = 10 ∨ sig.alg = 13 ∨ sig.alg = 14 ∨ sig.alg = 15 := by
        rcases h2 with h | h <;> simp [h]
      rw [if_pos h2, if_pos h2, if_pos this]
      by_cases hs : sig.signature.head? = some 1
      · simp [hs]
      · simp [hs, show (sig.signature.head? == some 1) = false by simpa using hs]
    · rw [if_neg h2, if_neg h2]
      by_cases h3 : sig.alg = 15
      · rw [if_pos (by simp [h3]), if_pos h3]
        by_cases hs : sig.signature.head? = some 1
        · simp [hs]
        · simp [hs, show (sig.signature.head? == some 1) = false by simpa using hs]
      · rw [if_neg h3, if_neg]
        intro h
        rcases h with h | h | h | h | h
        · exact h1 (.inl h)
        · exact h1 (.inr h)
        · exact h2 (.inl h)
        · exact h2 (.inr h)
        · exact h3 h

theorem verifyRrsigF_eq (p : Platform) (sig : RRSig) (keys : List DnsKey) (records : List RR) :
    verifyRrsigF p sig keys records = verifyRrsig (laxPlatform p) sig keys records := by
  unfold verifyRrsigF verifyRrsig
  split
  · rfl
  · induction keys with
    | nil => rfl
    | cons k ks ih =>
      rw [verifyKeysLoopF, verifyKeysLoop, ih]
      split
      · cases signedData sig records with
        | none => rfl
        | some msg => exact checkSigF_eq p sig k msg
      · rfl

theorem checkSig_lax {p p' : Platform} {sig : RRSig} {key : DnsKey} {msg : Bytes}
    (h : checkSig p sig key msg = .ok () ∨ (sig.signature.head? = some 1 ∧ checkSig p' sig key msg = .ok ())) :
    checkSig (laxPlatform p) sig key msg = .ok () := by
  unfold checkSig laxPlatform at *
  simp only at *
  by_cases h1 : sig.alg = 8 ∨ sig.alg = 10
  · simp only [if_pos h1] at *
    cases hb : bytesToRsaPk key.pubkey with
    | none => rw [hb] at h; simp at h
    | some ne =>
      rw [hb] at h
      simp only at *
      rcases h with h | ⟨hs, _⟩
      · by_cases h8 : sig.alg = 8
        · simp only [h8, if_true] at *
          split at h
          · next hv => simp [hv]
          · simp at h
        · simp only [h8, if_false] at *
          split at h
          · next hv => simp [hv]
          · simp at h
      · simp [hs]
  · simp only [if_neg h1] at *
    by_cases h2 : sig.alg = 13 ∨ sig.alg = 14
    · simp only [if_pos h2] at *
      rcases h with h | ⟨hs, _⟩
      · by_cases h8 : sig.alg = 13
        · simp only [h8, if_true] at *
          split at h
          · next hv => simp [hv]
          · simp at h
        · simp only [h8, if_false] at *
          split at h
          · next hv => simp [hv]
          · simp at h
      · simp [hs]
    · simp only [if_neg h2] at *
      by_cases h3 : sig.alg = 15
      · simp only [if_pos h3] at *
        rcases h with h | ⟨hs, _⟩
        · split at h
          · next hv => simp [hv]
          · simp at h
        · simp [hs]
      · simp only [if_neg h3] at h
        simp at h

theorem verifyRrsig_lax {p p' : Platform} {sig : RRSig} {keys : List DnsKey} {records : List RR}
    (h : verifyRrsig p sig keys records = .ok () ∨ (sig.signature.head? = some 1 ∧ verifyRrsig p' sig keys records = .ok ())) :
    verifyRrsig (laxPlatform p) sig keys records = .ok () := by
  unfold verifyRrsig at *
  split
  · next ht => simp [ht] at h
  · next ht =>
    simp only [ht, if_false, Bool.false_eq_true] at h
    clear ht
    induction keys with
    | nil => simp [verifyKeysLoop] at h
    | cons k ks ih =>
      rw [verifyKeysLoop] at h ⊢
      rw [verifyKeysLoop] at h
      split
      · next he =>
        simp only [he, if_true] at h
        cases hd : signedData sig records with
        | none => simp [hd] at h
        | some msg =>
          rw [hd] at h
          exact checkSig_lax h
      · next he =>
        simp only [he, if_false, Bool.false_eq_true] at h
        exact ih h

/-! ### The targets -/

theorem fuzz_cases (stream : Bytes) :
    (∃ m rest, stream = frame m ++ rest ∧ m.length ≤ 65535) ∨
    (readU16 stream = .err () ∨ ∃ len rest, readU16 stream = .ok (len, rest) ∧ rest.length < len.toNat) := by
  rcases stream with _ | ⟨a, _ | ⟨b, rest⟩⟩
  · right; left; rfl
  · right; left; rfl
  · by_cases h : rest.length < (ofBe16 a b).toNat
    · right; right; exact ⟨_, _, rfl, h⟩
    · left
      have ha := a.toNat_lt
      have hb := b.toNat_lt
      have ho : (ofBe16 a b).toNat = a.toNat * 256 + b.toNat := by
        unfold ofBe16; rw [UInt16.toNat_ofNat']; omega
      have hl : (rest.take (ofBe16 a b).toNat).length = a.toNat * 256 + b.toNat := by
        rw [List.length_take, ho]; rw [ho] at h; omega
      refine ⟨rest.take (ofBe16 a b).toNat, rest.drop (ofBe16 a b).toNat, ?_, by rw [hl]; omega⟩
      unfold frame
      rw [hl]
      have h1 : UInt8.ofNat ((a.toNat * 256 + b.toNat) / 256) = a := by
        rw [← UInt8.toNat_inj, UInt8.toNat_ofNat']; omega
      have h2 : UInt8.ofNat ((a.toNat * 256 + b.toNat) % 256) = b := by
        rw [← UInt8.toNat_inj, UInt8.toNat_ofNat']; omega
      rw [h1, h2]
      simp

theorem fuzz_stop {dbg : Bool} {b : ProofBuilder} {stream : Bytes} (fuel : Nat) (ha : b.awaiting = true)
    (h : readU16 stream = .err () ∨ ∃ len rest, readU16 stream = .ok (len, rest) ∧ rest.length < len.toNat) :
    fuzzLoop dbg (fuel + 1) b stream = some (.ok ()) := by
  rw [fuzzLoop, if_pos ha]
  rcases h with h | ⟨len, rest, h, hl⟩
  · simp only [h]
  · simp only [h, if_pos hl]

theorem fuzz_step {dbg : Bool} {b : ProofBuilder} {m rest : Bytes} (fuel : Nat) (ha : b.awaiting = true) (hm : m.length ≤ 65535) :
    fuzzLoop dbg (fuel + 1) b (frame m ++ rest) =
      match b.processResponse dbg m with
      | (_, .panic) => some .panic
      | (b, _) => fuzzLoop dbg fuel b rest := by
  have hb : (ofBe16 (UInt8.ofNat (m.length / 256)) (UInt8.ofNat (m.length % 256))).toNat = m.length := by
    unfold ofBe16
    rw [UInt16.toNat_ofNat', UInt8.toNat_ofNat', UInt8.toNat_ofNat']
    omega
  have hr : readU16 (frame m ++ rest) = .ok (ofBe16 (UInt8.ofNat (m.length / 256)) (UInt8.ofNat (m.length % 256)), m ++ rest) := rfl
  generalize ofBe16 (UInt8.ofNat (m.length / 256)) (UInt8.ofNat (m.length % 256)) = len at hb hr
  obtain ⟨q, e, _, hq, _⟩ := QueryBuf.overwrite_ok (QueryBuf.newZeroed_wf fuzzBufLimit len) (new := m)
    (by rw [QueryBuf.newZeroed_deref, List.length_replicate, hb])
  rw [fuzzLoop, if_pos ha]
  simp only [hr]
  rw [if_neg (by rw [List.length_append]; omega), hb, List.take_left, e, List.drop_left]
  simp only [hq]
  obtain ⟨b', r⟩ := b.processResponse dbg m
  cases r <;> rfl

theorem fuzzLoop_returns {dbg : Bool} (fuel : Nat) : ∀ (b : ProofBuilder) (stream : Bytes), stream.length < 2 * fuel →
    fuzzLoop dbg fuel b stream ≠ none := by
  induction fuel with
  | zero => intro b stream h; omega
  | succ fuel ih =>
    intro b stream h
    by_cases ha : b.awaiting = true
    · rcases fuzz_cases stream with ⟨m, rest, rfl, hm⟩ | hs
      · rw [fuzz_step fuel ha hm]
        have hl : rest.length < 2 * fuel := by
          simp only [frame, List.length_append, List.length_cons] at h
          omega
        obtain ⟨b', r⟩ := b.processResponse dbg m
        cases r with
        | ok _ => exact ih b' rest hl
        | err _ => exact ih b' rest hl
        | panic => simp
      · rw [fuzz_stop fuel ha hs]
        simp
    · rw [fuzzLoop, if_neg ha]
      simp

theorem fuzzLoop_ne_err {dbg : Bool} (fuel : Nat) : ∀ (b : ProofBuilder) (stream : Bytes) (e : Unit),
    fuzzLoop dbg fuel b stream ≠ some (.err e) := by
  induction fuel with
  | zero => intro b stream e; rw [fuzzLoop]; split <;> simp
  | succ fuel ih =>
    intro b stream e
    by_cases ha : b.awaiting = true
    · rcases fuzz_cases stream with ⟨m, rest, rfl, hm⟩ | hs
      · rw [fuzz_step fuel ha hm]
        obtain ⟨b', r⟩ := b.processResponse dbg m
        cases r with
        | ok _ => exact ih b' rest e
        | err _ => exact ih b' rest e
        | panic => simp
      · rw [fuzz_stop fuel ha hs]
        simp
    · rw [fuzzLoop, if_neg ha]
      simp

theorem awaiting_pending {b : ProofBuilder} (h : b.awaiting = true) : 0 < b.pending := by
  simp only [ProofBuilder.awaiting, Bool.and_eq_true, decide_eq_true_eq] at h
  exact h.1

theorem fuzzLoop_panic_iff {dbg : Bool} (fuel : Nat) : ∀ (b : ProofBuilder) (stream : Bytes), stream.length < 2 * fuel →
    (fuzzLoop dbg fuel b stream = some .panic ↔
      ∃ ms b' m rest, Feeds dbg b ms b' ∧ b'.awaiting = true ∧ MessagePanics dbg m ∧
        stream = (ms.map frame).flatten ++ (frame m ++ rest) ∧ ∀ x ∈ m :: ms, x.length ≤ 65535) := by
  induction fuel with
  | zero => intro b stream h; omega
  | succ fuel ih =>
    intro b stream h
    constructor
    · intro hf
      by_cases ha : b.awaiting = true
      · rcases fuzz_cases stream with ⟨m, rest, rfl, hm⟩ | hs
        · rw [fuzz_step fuel ha hm] at hf
          have hl : rest.length < 2 * fuel := by
            simp only [frame, List.length_append, List.length_cons] at h
            omega
          have hp := processResponse_panic_iff (dbg := dbg) (resp := m) (b := b)
          cases hpr : b.processResponse dbg m with
          | mk b' r =>
            rw [hpr] at hf hp
            have go : ∀ r', r = r' → r' ≠ .panic → fuzzLoop dbg fuel b' rest = some .panic →
                ∃ ms b' m' rest', Feeds dbg b ms b' ∧ b'.awaiting = true ∧ MessagePanics dbg m' ∧
                  frame m ++ rest = (ms.map frame).flatten ++ (frame m' ++ rest') ∧ ∀ x ∈ m' :: ms, x.length ≤ 65535 := by
              intro r' hr hne hf'
              obtain ⟨ms, b2, m2, rest2, h1, h2, h3, h4, h5⟩ := (ih b' rest hl).mp hf'
              refine ⟨m :: ms, b2, m2, rest2, .cons ha hpr (by rw [hr]; exact hne) h1, h2, h3, ?_, ?_⟩
              · rw [h4]; simp
              · intro x hx
                simp only [List.mem_cons] at hx
                rcases hx with rfl | rfl | hx
                · exact h5 _ (by simp)
                · exact hm
                · exact h5 _ (by simp [hx])
            cases r with
            | ok q => exact go _ rfl (by simp) hf
            | err e => exact go _ rfl (by simp) hf
            | panic =>
              exact ⟨[], b, m, rest, .nil b, ha, (hp.mp rfl).2, by simp, by intro x hx; simp at hx; subst hx; exact hm⟩
        · rw [fuzz_stop fuel ha hs] at hf
          simp at hf
      · rw [fuzzLoop, if_neg ha] at hf
        simp at hf
    · rintro ⟨ms, b', m, rest, h1, h2, h3, h4, h5⟩
      cases h1 with
      | nil =>
        rw [h4, List.map_nil, List.flatten_nil, List.nil_append, fuzz_step fuel h2 (h5 m (by simp))]
        have hp := (processResponse_panic_iff (dbg := dbg) (resp := m) (b := b)).mpr ⟨awaiting_pending h2, h3⟩
        cases hpr : b.processResponse dbg m with
        | mk b' r =>
          rw [hpr] at hp
          simp only at hp
          subst hp
          rfl
      | @cons _ b1 _ m1 ms r ha hpr hne hrest =>
        have e : stream = frame m1 ++ ((ms.map frame).flatten ++ (frame m ++ rest)) := by rw [h4]; simp
        have hl : ((ms.map frame).flatten ++ (frame m ++ rest)).length < 2 * fuel := by
          rw [e] at h
          simp only [frame, List.length_append, List.length_cons] at h ⊢
          omega
        have hih := (ih b1 _ hl).mpr ⟨ms, b', m, rest, hrest, h2, h3, rfl, fun x hx => h5 x (by
          simp only [List.mem_cons] at hx ⊢
          rcases hx with hx | hx
          · exact .inl hx
          · exact .inr (.inr hx))⟩
        rw [e, fuzz_step fuel ha (h5 m1 (by simp)), hpr]
        cases r with
        | ok _ => exact hih
        | err _ => exact hih
        | panic => exact absurd rfl hne

end Dnssec
