import Verif.Proofs.Json

/-! # JSON output of records -/

namespace Dnssec

open Spec

/-! ### Type masks -/

/-- Comma separated. -/
def joinComma : List Bytes → Bytes
  | [] => []
  | [x] => x
  | x :: xs => x ++ 44 :: joinComma xs

theorem joinComma_snoc (x : Bytes) : ∀ xs : List Bytes, joinComma (xs ++ [x]) = (if xs = [] then x else joinComma xs ++ 44 :: x)
  | [] => rfl
  | [y] => rfl
  | y :: z :: zs => by
    have := joinComma_snoc x (z :: zs)
    simp only [List.cons_append] at this
    simp only [List.cons_append, joinComma, this]
    simp

/-- The type with bit `b` of byte `idx`. -/
def typeAt (idx b : Nat) : UInt16 := (UInt16.ofNat idx <<< 3) ||| UInt16.ofNat (7 - b)

theorem typeAt_toNat {idx b : Nat} (hi : idx < 8192) (hb : b < 8) : (typeAt idx b).toNat = idx * 8 + (7 - b) := by
  unfold typeAt
  rw [UInt16.toNat_or, UInt16.toNat_shiftLeft, UInt16.toNat_ofNat', UInt16.toNat_ofNat']
  have h3 : (3 : UInt16).toNat % 16 = 3 := rfl
  rw [h3, Nat.mod_eq_of_lt (show idx < 2 ^ 16 by omega), Nat.mod_eq_of_lt (show 7 - b < 2 ^ 16 by omega)]
  have e : idx <<< 3 % 2 ^ 16 = 2 ^ 3 * idx := by
    rw [Nat.shiftLeft_eq]; omega
  rw [e, ← Nat.two_pow_add_eq_or_of_lt (by omega : 7 - b < 2 ^ 3)]
  omega

/-- The types of one byte, in the order written. -/
def byteTypes (idx : Nat) (mask : UInt8) (bs : List Nat) : List UInt16 :=
  (bs.filter (fun b => mask &&& (1 <<< UInt8.ofNat b) != 0)).map (typeAt idx)

/-- All types, in the order written. -/
def maskTypes : Nat → Bytes → List UInt16
  | _, [] => []
  | idx, m :: ms => byteTypes idx m (List.range 8) ++ maskTypes (idx + 1) ms

/-- The state of the loops after some types have been written. -/
def written (ts : List UInt16) : Bytes × Bool := (91 :: joinComma (ts.map typeJson), !ts.isEmpty)

theorem written_snoc (ts : List UInt16) (t : UInt16) :
    written (ts ++ [t]) = ((if (written ts).2 then (written ts).1 ++ ascii "," else (written ts).1) ++ typeJson t, true) := by
  unfold written
  rw [List.map_append, List.map_singleton, joinComma_snoc]
  cases ts with
  | nil => rfl
  | cons x xs => simp [ascii]

theorem bitsJson_eq (idx : Nat) (mask : UInt8) : ∀ (bs : List Nat) (ts : List UInt16),
    bitsJson idx mask bs (written ts) = written (ts ++ byteTypes idx mask bs)
  | [], ts => by simp [bitsJson, byteTypes]
  | b :: bs, ts => by
    have e : written ts = ((written ts).1, (written ts).2) := rfl
    rw [e, bitsJson]
    by_cases h : mask &&& (1 <<< UInt8.ofNat b) = 0
    · have := bitsJson_eq idx mask bs ts
      rw [if_neg (by simp [h]), ← e, this]
      simp [byteTypes, h]
    · rw [if_pos (by simpa using h)]
      have e2 := written_snoc ts (typeAt idx b)
      unfold typeAt at e2
      rw [← e2, bitsJson_eq idx mask bs]
      simp [byteTypes, h, typeAt]

theorem masksJson_eq : ∀ (ms : Bytes) (idx : Nat) (ts : List UInt16),
    masksJson idx ms (written ts) = written (ts ++ maskTypes idx ms)
  | [], idx, ts => by simp [masksJson, maskTypes]
  | m :: ms, idx, ts => by
    rw [masksJson, maskTypes]
    split
    · rename_i h
      subst h
      rw [masksJson_eq]
      have : byteTypes idx 0 (List.range 8) = [] := by
        unfold byteTypes
        rw [List.filter_eq_nil_iff.mpr]; rfl
        intro b _
        simp
      rw [this]; rfl
    · rw [bitsJson_eq, masksJson_eq, List.append_assoc]

theorem maskJson_eq (m : NSecTypeMask) : m.json = 91 :: (joinComma ((maskTypes 0 m.bytes.1).map typeJson) ++ [93]) := by
  unfold NSecTypeMask.json
  have : (ascii "[", false) = written [] := rfl
  rw [this, masksJson_eq]
  rfl

theorem mask_bit (mask : UInt8) {b : Nat} (hb : b < 8) : (mask &&& (1 <<< UInt8.ofNat b) != 0) = mask.toNat.testBit b := by
  have := testBit_lemma mask.toFin ⟨b, hb⟩
  exact this

theorem mem_byteTypes {idx : Nat} {mask : UInt8} (hi : idx < 8192) (t : UInt16) :
    t ∈ byteTypes idx mask (List.range 8) ↔ t.toNat / 8 = idx ∧ mask.toNat.testBit (7 - t.toNat % 8) = true := by
  unfold byteTypes
  simp only [List.mem_map, List.mem_filter, List.mem_range]
  constructor
  · rintro ⟨b, ⟨hb, hm⟩, rfl⟩
    rw [mask_bit mask hb] at hm
    rw [typeAt_toNat hi hb]
    refine ⟨by omega, ?_⟩
    rw [show 7 - (idx * 8 + (7 - b)) % 8 = b by omega]
    exact hm
  · rintro ⟨h1, h2⟩
    refine ⟨7 - t.toNat % 8, ⟨by omega, ?_⟩, ?_⟩
    · rw [mask_bit mask (by omega)]; exact h2
    · rw [← UInt16.toNat_inj, typeAt_toNat hi (by omega)]
      omega

theorem mem_maskTypes (t : UInt16) : ∀ (ms : Bytes) (idx : Nat), idx + ms.length ≤ 8192 →
    (t ∈ maskTypes idx ms ↔ idx ≤ t.toNat / 8 ∧ ∃ b, ms[t.toNat / 8 - idx]? = some b ∧ b.toNat.testBit (7 - t.toNat % 8) = true)
  | [], idx, _ => by simp [maskTypes]
  | m :: ms, idx, h => by
    rw [List.length_cons] at h
    rw [maskTypes, List.mem_append, mem_byteTypes (by omega), mem_maskTypes t ms (idx + 1) (by omega)]
    constructor
    · rintro (⟨h1, h2⟩ | ⟨h1, b, h2, h3⟩)
      · exact ⟨by omega, m, by rw [show t.toNat / 8 - idx = 0 by omega]; rfl, h2⟩
      · refine ⟨by omega, b, ?_, h3⟩
        rw [show t.toNat / 8 - idx = (t.toNat / 8 - (idx + 1)) + 1 by omega]
        simpa using h2
    · rintro ⟨h1, b, h2, h3⟩
      by_cases he : t.toNat / 8 = idx
      · left
        rw [show t.toNat / 8 - idx = 0 by omega] at h2
        simp only [List.getElem?_cons_zero, Option.some.injEq] at h2
        subst h2
        exact ⟨he, h3⟩
      · right
        rw [show t.toNat / 8 - idx = (t.toNat / 8 - (idx + 1)) + 1 by omega] at h2
        exact ⟨by omega, b, by simpa using h2, h3⟩

theorem byteTypes_nodup {idx : Nat} {mask : UInt8} (hi : idx < 8192) : (byteTypes idx mask (List.range 8)).Nodup := by
  unfold byteTypes
  rw [List.nodup_iff_pairwise_ne, List.pairwise_map]
  have hp : (List.range 8).Pairwise (fun a b => a ≠ b) := by decide
  have hr : ∀ a ∈ List.range 8, a < 8 := by simp
  have := (List.Pairwise.and_mem.mp hp).filter (fun b => mask &&& (1 <<< UInt8.ofNat b) != 0)
  refine this.imp ?_
  rintro a b ⟨ha, hb, hne⟩ e
  have h1 := typeAt_toNat hi (hr a ha)
  have h2 := typeAt_toNat hi (hr b hb)
  have := hr a ha
  have := hr b hb
  rw [e] at h1
  omega

theorem maskTypes_nodup : ∀ (ms : Bytes) (idx : Nat), idx + ms.length ≤ 8192 → (maskTypes idx ms).Nodup
  | [], _, _ => by simp [maskTypes]
  | m :: ms, idx, h => by
    rw [List.length_cons] at h
    rw [maskTypes, List.nodup_append]
    refine ⟨byteTypes_nodup (by omega), maskTypes_nodup ms (idx + 1) (by omega), ?_⟩
    rintro a ha b hb rfl
    rw [mem_byteTypes (by omega)] at ha
    rw [mem_maskTypes _ _ _ (by omega)] at hb
    omega

/-- The value of a type. -/
def typeVal (t : UInt16) : JVal := match tyToRRName t with | some n => .str n | none => .nat t.toNat

theorem tyToRRName_some {t : UInt16} {n : Bytes} (h : tyToRRName t = some n) : (t.toNat, n) ∈ mnemonics := by
  unfold tyToRRName at h
  by_cases h1 : t = aType
  · subst h1; rw [if_pos rfl] at h; simp only [Option.some.injEq] at h; subst h; decide
  rw [if_neg h1] at h
  by_cases h1 : t = aaaaType
  · subst h1; rw [if_pos rfl] at h; simp only [Option.some.injEq] at h; subst h; decide
  rw [if_neg h1] at h
  by_cases h1 : t = nsType
  · subst h1; rw [if_pos rfl] at h; simp only [Option.some.injEq] at h; subst h; decide
  rw [if_neg h1] at h
  by_cases h1 : t = txtType
  · subst h1; rw [if_pos rfl] at h; simp only [Option.some.injEq] at h; subst h; decide
  rw [if_neg h1] at h
  by_cases h1 : t = cnameType
  · subst h1; rw [if_pos rfl] at h; simp only [Option.some.injEq] at h; subst h; decide
  rw [if_neg h1] at h
  by_cases h1 : t = dnameType
  · subst h1; rw [if_pos rfl] at h; simp only [Option.some.injEq] at h; subst h; decide
  rw [if_neg h1] at h
  by_cases h1 : t = tlsaType
  · subst h1; rw [if_pos rfl] at h; simp only [Option.some.injEq] at h; subst h; decide
  rw [if_neg h1] at h
  by_cases h1 : t = dnskeyType
  · subst h1; rw [if_pos rfl] at h; simp only [Option.some.injEq] at h; subst h; decide
  rw [if_neg h1] at h
  by_cases h1 : t = dsType
  · subst h1; rw [if_pos rfl] at h; simp only [Option.some.injEq] at h; subst h; decide
  rw [if_neg h1] at h
  by_cases h1 : t = rrsigType
  · subst h1; rw [if_pos rfl] at h; simp only [Option.some.injEq] at h; subst h; decide
  rw [if_neg h1] at h
  by_cases h1 : t = nsecType
  · subst h1; rw [if_pos rfl] at h; simp only [Option.some.injEq] at h; subst h; decide
  rw [if_neg h1] at h
  by_cases h1 : t = nsec3Type
  · subst h1; rw [if_pos rfl] at h; simp only [Option.some.injEq] at h; subst h; decide
  rw [if_neg h1] at h
  simp at h

theorem tyToRRName_of_mem {t : UInt16} {n : Bytes} (h : (t.toNat, n) ∈ mnemonics) : tyToRRName t = some n := by
  have key : ∀ p ∈ mnemonics, tyToRRName (UInt16.ofNat p.1) = some p.2 := by decide
  have := key _ h
  rwa [UInt16.ofNat_toNat] at this

theorem mnemonics_plain : ∀ p ∈ mnemonics, Plain p.2 := by decide

theorem value_type (t : UInt16) : Value (typeJson t) (typeVal t) := by
  unfold typeJson typeVal
  cases h : tyToRRName t with
  | none => exact value_decimal _
  | some n => exact value_str (mnemonics_plain _ (tyToRRName_some h))

theorem typeVal_spec (t : UInt16) : TypeVal t.toNat (typeVal t) := by
  unfold typeVal
  cases h : tyToRRName t with
  | none =>
    right
    refine ⟨fun m hm => ?_, rfl⟩
    rw [tyToRRName_of_mem hm] at h
    simp at h
  | some n => exact Or.inl ⟨n, tyToRRName_some h, rfl⟩

theorem elems_types : ∀ (ts : List UInt16), ts ≠ [] → Elems (joinComma (ts.map typeJson)) (ts.map typeVal)
  | [], h => absurd rfl h
  | [t], _ => by
    have := Elems.one ws_nil (value_type t) ws_nil
    simpa [joinComma] using this
  | t :: t2 :: ts, _ => by
    have ih := elems_types (t2 :: ts) (by simp)
    have := Elems.cons ws_nil (value_type t) ws_nil ih
    simpa [joinComma] using this

theorem value_mask (m : NSecTypeMask) : ∃ v, Value m.json v ∧ TypesVal m v := by
  refine ⟨.arr ((maskTypes 0 m.bytes.1).map typeVal), ?_, maskTypes 0 m.bytes.1, _, maskTypes_nodup _ _ (by rw [m.bytes.2]; omega), ?_, rfl,
    by simp, ?_⟩
  · rw [maskJson_eq]
    by_cases h : maskTypes 0 m.bytes.1 = []
    · rw [h]; exact .arrEmpty ws_nil
    · exact .arr (elems_types _ h)
  · intro t
    rw [mem_maskTypes _ _ _ (by rw [m.bytes.2]; omega), containsType_iff]
    simp
  · intro p hp
    rw [List.zip_map_right, List.mem_map] at hp
    obtain ⟨q, hq, rfl⟩ := hp
    have : ∀ (l : List UInt16) (q : UInt16 × UInt16), q ∈ l.zip l → q.1 = q.2 := by
      intro l
      induction l with
      | nil => simp
      | cons x xs ih =>
        intro q hq
        simp only [List.zip_cons_cons, List.mem_cons] at hq
        rcases hq with rfl | hq
        · rfl
        · exact ih q hq
    have e := this _ q hq
    simp only [Prod.map]
    rw [e]
    exact typeVal_spec _

end Dnssec

namespace Dnssec

open Spec

/-! ### Records -/

/-- A quoted string. -/
def quoted (s : Bytes) : Bytes := 34 :: (s ++ [34])

theorem value_quoted {s : Bytes} (h : Plain s) : Value (quoted s) (.str s) := value_str h

theorem txt_contents (d : Bytes) {cs : List Nat} (h : utf8Decode d = some cs)
    (hc : cs.all (fun c => !isControl c && decide (c ≠ 34) && decide (c ≠ 92)) = true) : Plain d := by
  intro c hcd
  rw [List.all_eq_true] at hc
  by_cases hl : c.toNat < 128
  · have := hc _ (utf8Decode_mem h c hcd hl)
    simp only [Bool.and_eq_true, Bool.not_eq_true', decide_eq_true_eq, isControl, Bool.or_eq_false_iff, decide_eq_false_iff_not] at this
    obtain ⟨⟨⟨h1, _⟩, h2⟩, h3⟩ := this
    refine ⟨by omega, ?_, ?_⟩
    · rintro rfl; exact h2 rfl
    · rintro rfl; exact h3 rfl
  · refine ⟨by omega, ?_, ?_⟩
    · rintro rfl; exact hl (by decide)
    · rintro rfl; exact hl (by decide)

theorem printable_iff {d : Bytes} :
    Printable d ↔ ∃ cs, utf8Decode d = some cs ∧ cs.all (fun c => !isControl c && decide (c ≠ 34) && decide (c ≠ 92)) = true := by
  have e : ∀ c, (!isControl c && decide (c ≠ 34) && decide (c ≠ 92)) = true ↔ 32 ≤ c ∧ ¬ (127 ≤ c ∧ c ≤ 159) ∧ c ≠ 34 ∧ c ≠ 92 := by
    intro c
    simp only [Bool.and_eq_true, Bool.not_eq_true', decide_eq_true_eq, isControl, Bool.or_eq_false_iff, decide_eq_false_iff_not,
      Bool.and_eq_false_iff]
    omega
  constructor
  · rintro ⟨cs, h, rfl⟩
    refine ⟨cs, utf8Decode_complete fun c hc => (h c hc).1, ?_⟩
    rw [List.all_eq_true]
    exact fun c hc => (e c).mpr (h c hc).2
  · rintro ⟨cs, h, hc⟩
    rw [List.all_eq_true] at hc
    obtain ⟨a, b⟩ := utf8Decode_sound h
    exact ⟨cs, fun c hm => ⟨a c hm, (e c).mp (hc c hm)⟩, b⟩

/-- What has to be shown of a record to render it. -/
theorem value_record (ms : List (Bytes × Bytes × JVal)) {text : Bytes} (hne : ms ≠ []) (h : ∀ m ∈ ms, Plain m.1 ∧ Value m.2.1 m.2.2)
    (e : text = 123 :: (renderMembers (ms.map (fun m => (m.1, m.2.1))) ++ [125])) :
    Value text (.obj (ms.map (fun m => (m.1, m.2.2)))) := e ▸ value_obj ms hne h

theorem record_json {rr : RR} (hsig : ∀ s, rr ≠ .rrsig s) (hn : Plain rr.name.bytes) (hi : ∀ n ∈ rdataNames rr, Plain n.bytes) :
    ∃ ms, Value rr.json (.obj ms) ∧ JsonOf rr ms := by
  cases rr with
  | rrsig s => exact absurd rfl (hsig s)
  | a r =>
    refine ⟨_, value_record [(ascii "type", quoted (ascii "a"), .str (ascii "a")), (ascii "name", quoted r.name.bytes, .str r.name.bytes),
      (ascii "address", debugBytes r.address.1, bytesArr r.address.1)] (by simp) ?_ ?_, rfl⟩
    · simp only [List.mem_cons, List.not_mem_nil, or_false, forall_eq_or_imp, forall_eq]
      exact ⟨⟨by decide, value_quoted (by decide)⟩, ⟨by decide, value_quoted hn⟩, ⟨by decide, value_debug _⟩⟩
    · simp only [RR.json, A.json, List.map_cons, List.map_nil, renderMembers, quoted, List.append_assoc, List.cons_append]
      rfl
  | aaaa r =>
    refine ⟨_, value_record [(ascii "type", quoted (ascii "aaaa"), .str (ascii "aaaa")), (ascii "name", quoted r.name.bytes, .str r.name.bytes),
      (ascii "address", debugBytes r.address.1, bytesArr r.address.1)] (by simp) ?_ ?_, rfl⟩
    · simp only [List.mem_cons, List.not_mem_nil, or_false, forall_eq_or_imp, forall_eq]
      exact ⟨⟨by decide, value_quoted (by decide)⟩, ⟨by decide, value_quoted hn⟩, ⟨by decide, value_debug _⟩⟩
    · simp only [RR.json, AAAA.json, List.map_cons, List.map_nil, renderMembers, quoted, List.append_assoc, List.cons_append]
      rfl
  | ns r =>
    refine ⟨_, value_record [(ascii "type", quoted (ascii "ns"), .str (ascii "ns")), (ascii "name", quoted r.name.bytes, .str r.name.bytes),
      (ascii "ns", quoted r.nameServer.bytes, .str r.nameServer.bytes)] (by simp) ?_ ?_, rfl⟩
    · simp only [List.mem_cons, List.not_mem_nil, or_false, forall_eq_or_imp, forall_eq]
      exact ⟨⟨by decide, value_quoted (by decide)⟩, ⟨by decide, value_quoted hn⟩, ⟨by decide, value_quoted (hi _ (by simp [rdataNames]))⟩⟩
    · simp only [RR.json, NS.json, List.map_cons, List.map_nil, renderMembers, quoted, List.append_assoc, List.cons_append]
      rfl
  | cname r =>
    refine ⟨_, value_record [(ascii "type", quoted (ascii "cname"), .str (ascii "cname")), (ascii "name", quoted r.name.bytes, .str r.name.bytes),
      (ascii "canonical_name", quoted r.canonicalName.bytes, .str r.canonicalName.bytes)] (by simp) ?_ ?_, rfl⟩
    · simp only [List.mem_cons, List.not_mem_nil, or_false, forall_eq_or_imp, forall_eq]
      exact ⟨⟨by decide, value_quoted (by decide)⟩, ⟨by decide, value_quoted hn⟩, ⟨by decide, value_quoted (hi _ (by simp [rdataNames]))⟩⟩
    · simp only [RR.json, CName.json, List.map_cons, List.map_nil, renderMembers, quoted, List.append_assoc, List.cons_append]
      rfl
  | dname r =>
    refine ⟨_, value_record [(ascii "type", quoted (ascii "dname"), .str (ascii "dname")), (ascii "name", quoted r.name.bytes, .str r.name.bytes),
      (ascii "delegation_name", quoted r.delegationName.bytes, .str r.delegationName.bytes)] (by simp) ?_ ?_, rfl⟩
    · simp only [List.mem_cons, List.not_mem_nil, or_false, forall_eq_or_imp, forall_eq]
      exact ⟨⟨by decide, value_quoted (by decide)⟩, ⟨by decide, value_quoted hn⟩, ⟨by decide, value_quoted (hi _ (by simp [rdataNames]))⟩⟩
    · simp only [RR.json, DName.json, List.map_cons, List.map_nil, renderMembers, quoted, List.append_assoc, List.cons_append]
      rfl
  | txt r =>
    have arr : Txt.json r = ascii "{\"type\":\"txt\",\"name\":\"" ++ (r.name.bytes ++ (ascii "\",\"contents\":" ++ (debugBytes r.data ++ ascii "}"))) →
        ¬ Printable r.data → ∃ ms, Value (Txt.json r) (.obj ms) ∧ JsonOf (.txt r) ms := by
      intro e hp
      refine ⟨_, value_record [(ascii "type", quoted (ascii "txt"), .str (ascii "txt")), (ascii "name", quoted r.name.bytes, .str r.name.bytes),
        (ascii "contents", debugBytes r.data, bytesArr r.data)] (by simp) ?_ ?_, _, Or.inr ⟨hp, rfl⟩, rfl⟩
      · simp only [List.mem_cons, List.not_mem_nil, or_false, forall_eq_or_imp, forall_eq]
        exact ⟨⟨by decide, value_quoted (by decide)⟩, ⟨by decide, value_quoted hn⟩, ⟨by decide, value_debug _⟩⟩
      · simp only [e, List.map_cons, List.map_nil, renderMembers, quoted, List.append_assoc, List.cons_append]
        rfl
    simp only [RR.json]
    unfold Txt.json at arr ⊢
    simp only at arr ⊢
    cases hd : utf8Decode r.data with
    | none =>
      rw [hd] at arr
      exact arr rfl fun hp => by obtain ⟨_, h, _⟩ := printable_iff.mp hp; rw [hd] at h; exact nomatch h
    | some cs =>
      rw [hd] at arr
      simp only at arr ⊢
      by_cases hc : cs.all (fun c => !isControl c && decide (c ≠ 34) && decide (c ≠ 92)) = true
      · rw [if_pos hc]
        refine ⟨_, value_record [(ascii "type", quoted (ascii "txt"), .str (ascii "txt")), (ascii "name", quoted r.name.bytes, .str r.name.bytes),
          (ascii "contents", quoted r.data, .str r.data)] (by simp) ?_ ?_, _, Or.inl ⟨printable_iff.mpr ⟨cs, hd, hc⟩, rfl⟩, rfl⟩
        · simp only [List.mem_cons, List.not_mem_nil, or_false, forall_eq_or_imp, forall_eq]
          exact ⟨⟨by decide, value_quoted (by decide)⟩, ⟨by decide, value_quoted hn⟩, ⟨by decide, value_quoted (txt_contents _ hd hc)⟩⟩
        · simp only [List.map_cons, List.map_nil, renderMembers, quoted, List.append_assoc, List.cons_append]
          rfl
      · rw [if_neg hc] at arr ⊢
        refine arr rfl fun hp => ?_
        obtain ⟨_, h, h'⟩ := printable_iff.mp hp
        rw [hd, Option.some.injEq] at h
        exact hc (h ▸ h')
  | tlsa r =>
    refine ⟨_, value_record [(ascii "type", quoted (ascii "tlsa"), .str (ascii "tlsa")), (ascii "name", quoted r.name.bytes, .str r.name.bytes),
      (ascii "usage", decimal r.certUsage.toNat, .nat r.certUsage.toNat), (ascii "selector", decimal r.selector.toNat, .nat r.selector.toNat),
      (ascii "data_ty", decimal r.dataTy.toNat, .nat r.dataTy.toNat), (ascii "data", quoted (hex r.data), .str (hex r.data))] (by simp) ?_ ?_,
      _, hex_isHex _, rfl⟩
    · simp only [List.mem_cons, List.not_mem_nil, or_false, forall_eq_or_imp, forall_eq]
      exact ⟨⟨by decide, value_quoted (by decide)⟩, ⟨by decide, value_quoted hn⟩, ⟨by decide, value_decimal _⟩, ⟨by decide, value_decimal _⟩,
        ⟨by decide, value_decimal _⟩, ⟨by decide, value_quoted (hex_plain _)⟩⟩
    · simp only [RR.json, TLSA.json, List.map_cons, List.map_nil, renderMembers, quoted, List.append_assoc, List.cons_append]
      rfl
  | dnskey r =>
    refine ⟨_, value_record [(ascii "type", quoted (ascii "dnskey"), .str (ascii "dnskey")), (ascii "name", quoted r.name.bytes, .str r.name.bytes),
      (ascii "flags", decimal r.flags.toNat, .nat r.flags.toNat), (ascii "protocol", decimal r.protocol.toNat, .nat r.protocol.toNat),
      (ascii "alg", decimal r.alg.toNat, .nat r.alg.toNat), (ascii "pubkey", quoted (hex r.pubkey), .str (hex r.pubkey))] (by simp) ?_ ?_,
      _, hex_isHex _, rfl⟩
    · simp only [List.mem_cons, List.not_mem_nil, or_false, forall_eq_or_imp, forall_eq]
      exact ⟨⟨by decide, value_quoted (by decide)⟩, ⟨by decide, value_quoted hn⟩, ⟨by decide, value_decimal _⟩, ⟨by decide, value_decimal _⟩,
        ⟨by decide, value_decimal _⟩, ⟨by decide, value_quoted (hex_plain _)⟩⟩
    · simp only [RR.json, DnsKey.json, List.map_cons, List.map_nil, renderMembers, quoted, List.append_assoc, List.cons_append]
      rfl
  | ds r =>
    refine ⟨_, value_record [(ascii "type", quoted (ascii "ds"), .str (ascii "ds")), (ascii "name", quoted r.name.bytes, .str r.name.bytes),
      (ascii "key_tag", decimal r.keyTag.toNat, .nat r.keyTag.toNat), (ascii "alg", decimal r.alg.toNat, .nat r.alg.toNat),
      (ascii "digest_type", decimal r.digestType.toNat, .nat r.digestType.toNat), (ascii "digest", quoted (hex r.digest), .str (hex r.digest))]
      (by simp) ?_ ?_, _, hex_isHex _, rfl⟩
    · simp only [List.mem_cons, List.not_mem_nil, or_false, forall_eq_or_imp, forall_eq]
      exact ⟨⟨by decide, value_quoted (by decide)⟩, ⟨by decide, value_quoted hn⟩, ⟨by decide, value_decimal _⟩, ⟨by decide, value_decimal _⟩,
        ⟨by decide, value_decimal _⟩, ⟨by decide, value_quoted (hex_plain _)⟩⟩
    · simp only [RR.json, DS.json, List.map_cons, List.map_nil, renderMembers, quoted, List.append_assoc, List.cons_append]
      rfl
  | nsec r =>
    obtain ⟨ts, h1, h2⟩ := value_mask r.types
    refine ⟨_, value_record [(ascii "type", quoted (ascii "nsec"), .str (ascii "nsec")), (ascii "name", quoted r.name.bytes, .str r.name.bytes),
      (ascii "next_name", quoted r.nextName.bytes, .str r.nextName.bytes), (ascii "types", r.types.json, ts)] (by simp) ?_ ?_, ts, h2, rfl⟩
    · simp only [List.mem_cons, List.not_mem_nil, or_false, forall_eq_or_imp, forall_eq]
      exact ⟨⟨by decide, value_quoted (by decide)⟩, ⟨by decide, value_quoted hn⟩, ⟨by decide, value_quoted (hi _ (by simp [rdataNames]))⟩,
        ⟨by decide, h1⟩⟩
    · simp only [RR.json, NSec.json, List.map_cons, List.map_nil, renderMembers, quoted, List.append_assoc, List.cons_append]
      rfl
  | nsec3 r =>
    obtain ⟨ts, h1, h2⟩ := value_mask r.types
    refine ⟨_, value_record [(ascii "type", quoted (ascii "nsec3"), .str (ascii "nsec3")), (ascii "name", quoted r.name.bytes, .str r.name.bytes),
      (ascii "hash_algo", decimal r.hashAlgo.toNat, .nat r.hashAlgo.toNat), (ascii "flags", decimal r.flags.toNat, .nat r.flags.toNat),
      (ascii "hash_iterations", decimal r.hashIterations.toNat, .nat r.hashIterations.toNat), (ascii "salt", debugBytes r.salt, bytesArr r.salt),
      (ascii "next_name_hash", debugBytes r.nextNameHash, bytesArr r.nextNameHash), (ascii "types", r.types.json, ts)] (by simp) ?_ ?_, ts, h2, rfl⟩
    · simp only [List.mem_cons, List.not_mem_nil, or_false, forall_eq_or_imp, forall_eq]
      exact ⟨⟨by decide, value_quoted (by decide)⟩, ⟨by decide, value_quoted hn⟩, ⟨by decide, value_decimal _⟩, ⟨by decide, value_decimal _⟩,
        ⟨by decide, value_decimal _⟩, ⟨by decide, value_debug _⟩, ⟨by decide, value_debug _⟩, ⟨by decide, h1⟩⟩
    · simp only [RR.json, NSec3.json, List.map_cons, List.map_nil, renderMembers, quoted, List.append_assoc, List.cons_append]
      rfl

/-! ### The output is UTF-8 -/

/-- Only ASCII bytes. -/
def IsAscii (s : Bytes) : Prop := ∀ c ∈ s, c.toNat < 128

theorem IsAscii.append {a b : Bytes} (ha : IsAscii a) (hb : IsAscii b) : IsAscii (a ++ b) := by
  intro c hc
  rcases List.mem_append.mp hc with h | h
  · exact ha c h
  · exact hb c h

instance (s : Bytes) : Decidable (IsAscii s) := by unfold IsAscii; infer_instance

theorem decimal_ascii (n : Nat) : IsAscii (decimal n) := fun c hc => by have := ((decimal_int n).digits c hc).2; omega

theorem hex_ascii (bs : Bytes) : IsAscii (hex bs) := fun c hc => by have := (hex_bytes bs c hc).2; omega

theorem debugElems_ascii : ∀ bs : Bytes, IsAscii (debugElems bs)
  | [] => by simp [debugElems, IsAscii]
  | [b] => decimal_ascii _
  | b :: b2 :: bs => by
    rw [debugElems]
    · exact (decimal_ascii _).append (IsAscii.append (by decide) (debugElems_ascii _))
    · simp

theorem debugBytes_ascii (bs : Bytes) : IsAscii (debugBytes bs) :=
  IsAscii.append (by decide) ((debugElems_ascii bs).append (by decide))

theorem typeJson_ascii (t : UInt16) : IsAscii (typeJson t) := by
  unfold typeJson
  cases h : tyToRRName t with
  | none => exact decimal_ascii _
  | some n =>
    have key : ∀ p ∈ mnemonics, IsAscii p.2 := by decide
    exact IsAscii.append (by decide) ((key _ (tyToRRName_some h)).append (by decide))

theorem joinComma_ascii : ∀ xs : List Bytes, (∀ x ∈ xs, IsAscii x) → IsAscii (joinComma xs)
  | [], _ => by simp [joinComma, IsAscii]
  | [x], h => h x (by simp)
  | x :: y :: ys, h => by
    rw [joinComma]
    · exact (h x (by simp)).append (IsAscii.append (a := [44]) (by decide) (joinComma_ascii (y :: ys) fun z hz => h z (by simp [List.mem_cons.mp hz])))
    · simp

theorem maskJson_ascii (m : NSecTypeMask) : IsAscii m.json := by
  rw [maskJson_eq]
  refine IsAscii.append (a := [91]) (by decide) (IsAscii.append (joinComma_ascii _ ?_) (by decide))
  intro x hx
  rw [List.mem_map] at hx
  obtain ⟨t, _, rfl⟩ := hx
  exact typeJson_ascii t

theorem record_utf8 {rr : RR} (hn : IsAscii rr.name.bytes) (hi : ∀ n ∈ rdataNames rr, IsAscii n.bytes) : utf8Valid rr.json = true := by
  have lit : ∀ {s : Bytes}, IsAscii s → IsAscii s := id
  cases rr with
  | txt r =>
    simp only [RR.json, Txt.json]
    have h1 : IsAscii (ascii "{\"type\":\"txt\",\"name\":\"" ++ (r.name.bytes ++ (ascii "\",\"contents\":" ++ (debugBytes r.data ++ ascii "}")))) :=
      IsAscii.append (by decide) (IsAscii.append hn (IsAscii.append (by decide) (IsAscii.append (debugBytes_ascii _) (by decide))))
    cases hd : utf8Decode r.data with
    | none => exact utf8Valid_ascii h1
    | some cs =>
      simp only
      split
      · refine utf8Valid_append (utf8Valid_ascii (show IsAscii _ by decide)) (utf8Valid_append (utf8Valid_ascii hn) (utf8Valid_append
          (utf8Valid_ascii (show IsAscii _ by decide)) (utf8Valid_append ?_ (utf8Valid_ascii (show IsAscii _ by decide)))))
        simp [utf8Valid, hd]
      · exact utf8Valid_ascii h1
  | a r => exact utf8Valid_ascii (IsAscii.append (by decide) (IsAscii.append hn (IsAscii.append (by decide)
      (IsAscii.append (debugBytes_ascii _) (by decide)))))
  | aaaa r => exact utf8Valid_ascii (IsAscii.append (by decide) (IsAscii.append hn (IsAscii.append (by decide)
      (IsAscii.append (debugBytes_ascii _) (by decide)))))
  | ns r => exact utf8Valid_ascii (IsAscii.append (by decide) (IsAscii.append hn (IsAscii.append (by decide)
      (IsAscii.append (hi _ (by simp [rdataNames])) (by decide)))))
  | cname r => exact utf8Valid_ascii (IsAscii.append (by decide) (IsAscii.append hn (IsAscii.append (by decide)
      (IsAscii.append (hi _ (by simp [rdataNames])) (by decide)))))
  | dname r => exact utf8Valid_ascii (IsAscii.append (by decide) (IsAscii.append hn (IsAscii.append (by decide)
      (IsAscii.append (hi _ (by simp [rdataNames])) (by decide)))))
  | tlsa r => exact utf8Valid_ascii (IsAscii.append (by decide) (IsAscii.append hn (IsAscii.append (by decide)
      (IsAscii.append (decimal_ascii _) (IsAscii.append (by decide) (IsAscii.append (decimal_ascii _) (IsAscii.append (by decide)
      (IsAscii.append (decimal_ascii _) (IsAscii.append (by decide) (IsAscii.append (hex_ascii _) (by decide)))))))))))
  | dnskey r => exact utf8Valid_ascii (IsAscii.append (by decide) (IsAscii.append hn (IsAscii.append (by decide)
      (IsAscii.append (decimal_ascii _) (IsAscii.append (by decide) (IsAscii.append (decimal_ascii _) (IsAscii.append (by decide)
      (IsAscii.append (decimal_ascii _) (IsAscii.append (by decide) (IsAscii.append (hex_ascii _) (by decide)))))))))))
  | ds r => exact utf8Valid_ascii (IsAscii.append (by decide) (IsAscii.append hn (IsAscii.append (by decide)
      (IsAscii.append (decimal_ascii _) (IsAscii.append (by decide) (IsAscii.append (decimal_ascii _) (IsAscii.append (by decide)
      (IsAscii.append (decimal_ascii _) (IsAscii.append (by decide) (IsAscii.append (hex_ascii _) (by decide)))))))))))
  | rrsig r => exact utf8Valid_ascii (IsAscii.append (by decide) (IsAscii.append hn (IsAscii.append (by decide)
      (IsAscii.append (decimal_ascii _) (IsAscii.append (by decide) (IsAscii.append (decimal_ascii _) (IsAscii.append (by decide)
      (IsAscii.append (decimal_ascii _) (IsAscii.append (by decide) (IsAscii.append (decimal_ascii _) (IsAscii.append (by decide)
      (IsAscii.append (decimal_ascii _) (IsAscii.append (by decide) (IsAscii.append (decimal_ascii _) (IsAscii.append (by decide)
      (IsAscii.append (decimal_ascii _) (IsAscii.append (by decide) (IsAscii.append (hi _ (by simp [rdataNames])) (IsAscii.append (by decide)
      (IsAscii.append (hex_ascii _) (by decide)))))))))))))))))))))
  | nsec r => exact utf8Valid_ascii (IsAscii.append (by decide) (IsAscii.append hn (IsAscii.append (by decide)
      (IsAscii.append (hi _ (by simp [rdataNames])) (IsAscii.append (by decide) (IsAscii.append (maskJson_ascii _) (by decide)))))))
  | nsec3 r => exact utf8Valid_ascii (IsAscii.append (by decide) (IsAscii.append hn (IsAscii.append (by decide)
      (IsAscii.append (decimal_ascii _) (IsAscii.append (by decide) (IsAscii.append (decimal_ascii _) (IsAscii.append (by decide)
      (IsAscii.append (decimal_ascii _) (IsAscii.append (by decide) (IsAscii.append (debugBytes_ascii _) (IsAscii.append (by decide)
      (IsAscii.append (debugBytes_ascii _) (IsAscii.append (by decide) (IsAscii.append (maskJson_ascii _) (by decide)))))))))))))))

/-! ### A necessary condition for JSON texts -/

/-- 0: outside strings, 1: inside, 2: inside after a backslash, 3: right after a string, 4: something after a string or a backslash
that can not follow one. -/
def scan : Nat → UInt8 → Nat
  | 0, c => if c = 34 then 1 else 0
  | 1, c => if c = 34 then 3 else if c = 92 then 2 else 1
  | 2, c => if (shortEscape c).isSome ∨ c = 117 then 1 else 4
  | 3, c => if c = 32 ∨ c = 9 ∨ c = 10 ∨ c = 13 ∨ c = 44 ∨ c = 58 ∨ c = 93 ∨ c = 125 then 0 else 4
  | _, _ => 4

/-- Scanning a text. -/
def scanAll (s : Nat) (t : Bytes) : Nat := t.foldl scan s

theorem scanAll_append (s : Nat) (a b : Bytes) : scanAll s (a ++ b) = scanAll (scanAll s a) b := by simp [scanAll]
theorem scanAll_cons (s : Nat) (c : UInt8) (b : Bytes) : scanAll s (c :: b) = scanAll (scan s c) b := rfl
theorem scanAll_nil (s : Nat) : scanAll s [] = s := rfl

theorem scan_out {t : Bytes} (h : ∀ c ∈ t, c ≠ 34) : scanAll 0 t = 0 := by
  induction t with
  | nil => rfl
  | cons c cs ih =>
    rw [scanAll_cons, scan, if_neg (h c (by simp))]
    exact ih fun c hc => h c (by simp [hc])

theorem scan_plain {t : Bytes} (h : ∀ c ∈ t, c ≠ 34 ∧ c ≠ 92) : scanAll 1 t = 1 := by
  induction t with
  | nil => rfl
  | cons c cs ih =>
    obtain ⟨h1, h2⟩ := h c (by simp)
    rw [scanAll_cons, scan, if_neg h1, if_neg h2]
    exact ih fun c hc => h c (by simp [hc])

theorem scan_bad (t : Bytes) : scanAll 4 t = 4 := by
  induction t with
  | nil => rfl
  | cons c cs ih => exact ih

theorem scan_ws {t : Bytes} (h : Ws t) {s : Nat} (hs : s = 0 ∨ s = 3) : scanAll s t = 0 ∨ scanAll s t = 3 := by
  have h0 : scanAll 0 t = 0 := scan_out fun c hc => by rcases h c hc with rfl | rfl | rfl | rfl <;> decide
  rcases hs with rfl | rfl
  · exact Or.inl h0
  · cases t with
    | nil => exact Or.inr rfl
    | cons c cs =>
      left
      rw [scanAll_cons]
      have : scan 3 c = 0 := by rcases h c (by simp) with rfl | rfl | rfl | rfl <;> decide
      rw [this]
      exact scan_out fun c hc => by rcases h c (by simp [hc]) with rfl | rfl | rfl | rfl <;> decide

theorem hexValue_plain {c : UInt8} {n : Nat} (h : hexValue c = some n) : c ≠ 34 ∧ c ≠ 92 := by
  constructor
  · rintro rfl; rw [show hexValue 34 = none by decide] at h; exact nomatch h
  · rintro rfl; rw [show hexValue 92 = none by decide] at h; exact nomatch h

theorem hex4_plain {a b c d : UInt8} {n : Nat} (h : hex4 a b c d = some n) : (a ≠ 34 ∧ a ≠ 92) ∧ (b ≠ 34 ∧ b ≠ 92) ∧ (c ≠ 34 ∧ c ≠ 92) ∧ (d ≠ 34 ∧ d ≠ 92) := by
  unfold hex4 at h
  cases ha : hexValue a with
  | none => rw [ha] at h; simp at h
  | some x =>
    cases hb : hexValue b with
    | none => rw [ha, hb] at h; simp at h
    | some y =>
      cases hc : hexValue c with
      | none => rw [ha, hb, hc] at h; simp at h
      | some z =>
        cases hd : hexValue d with
        | none => rw [ha, hb, hc, hd] at h; simp at h
        | some w => exact ⟨hexValue_plain ha, hexValue_plain hb, hexValue_plain hc, hexValue_plain hd⟩

theorem scan_chars {t s : Bytes} (h : Chars t s) : scanAll 1 t = 1 := by
  have quad : ∀ {a b c d : UInt8} {n : Nat} {r : Bytes}, hex4 a b c d = some n →
      scanAll 1 (92 :: 117 :: a :: b :: c :: d :: r) = scanAll 1 r := by
    intro a b c d n r h
    obtain ⟨⟨a1, a2⟩, ⟨b1, b2⟩, ⟨c1, c2⟩, d1, d2⟩ := hex4_plain h
    simp [scanAll_cons, scan, a1, a2, b1, b2, c1, c2, d1, d2]
  induction h with
  | nil => rfl
  | plain _ h2 h3 _ ih => rw [scanAll_cons, scan, if_neg h2, if_neg h3]; exact ih
  | escape h _ ih => rw [scanAll_cons, scanAll_cons, show scan 1 92 = 2 from rfl, scan, if_pos (Or.inl (by rw [h]; rfl))]; exact ih
  | unicode h _ _ ih => rw [quad h]; exact ih
  | surrogates h1 _ _ h2 _ _ _ ih => rw [quad h1, quad h2]; exact ih

theorem numberText_chars {t : Bytes} (h : NumberText t) :
    ∀ c ∈ t, (48 ≤ c.toNat ∧ c.toNat ≤ 57) ∨ c = 45 ∨ c = 43 ∨ c = 46 ∨ c = 101 ∨ c = 69 := by
  obtain ⟨sign, int, frac, exp, n, rfl, h1, h2, h3, h4⟩ := h
  intro c hc
  simp only [List.mem_append] at hc
  rcases hc with hc | hc | hc | hc
  · rcases h1 with rfl | rfl
    · simp at hc
    · simp only [List.mem_singleton] at hc
      exact Or.inr (Or.inl hc)
  · exact Or.inl (h2.digits c hc)
  · rcases h3 with rfl | ⟨ds, rfl, h3⟩
    · simp at hc
    · rcases List.mem_cons.mp hc with rfl | hc
      · simp
      · exact Or.inl (h3.2 c hc)
  · rcases h4 with rfl | ⟨e, s, ds, rfl, he, hs, h4⟩
    · simp at hc
    · simp only [List.mem_cons, List.mem_append] at hc
      rcases hc with rfl | hc | hc
      · rcases he with rfl | rfl <;> simp
      · rcases hs with rfl | rfl | rfl <;> simp at hc <;> simp [hc]
      · exact Or.inl (h4.2 c hc)

theorem scan_after {s : Nat} (hs : s = 0 ∨ s = 3) {c : UInt8} (hc : c = 44 ∨ c = 58 ∨ c = 93 ∨ c = 125) : scan s c = 0 := by
  rcases hs with rfl | rfl <;> rcases hc with rfl | rfl | rfl | rfl <;> decide

theorem scan_value {t : Bytes} {v : JVal} (h : Value t v) : scanAll 0 t = 0 ∨ scanAll 0 t = 3 := by
  refine Value.rec (motive_1 := fun t _ _ => scanAll 0 t = 0 ∨ scanAll 0 t = 3)
    (motive_2 := fun t _ _ => scanAll 0 t = 0 ∨ scanAll 0 t = 3) (motive_3 := fun t _ _ => scanAll 0 t = 0 ∨ scanAll 0 t = 3)
    ?_ ?_ ?_ ?_ ?_ ?_ ?_ ?_ ?_ ?_ ?_ ?_ ?_ ?_ h
  · intro t n h
    left
    apply scan_out
    intro c hc e
    have := h.digits c hc
    subst e
    revert this; decide
  · intro t h _
    left
    apply scan_out
    intro c hc e
    have := numberText_chars h c hc
    subst e
    revert this; decide
  · intro t s h
    right
    rw [scanAll_cons, scanAll_append]
    have : scan 0 34 = 1 := rfl
    rw [this, scan_chars h]
    rfl
  · intro w hw
    left
    rw [scanAll_cons, scanAll_append]
    have := scan_ws hw (Or.inl (show scan 0 91 = 0 from rfl))
    exact scan_after this (by decide)
  · intro t vs _ ih
    left
    rw [scanAll_cons, scanAll_append]
    exact scan_after ih (by decide)
  · intro w hw
    left
    rw [scanAll_cons, scanAll_append]
    have := scan_ws hw (Or.inl (show scan 0 123 = 0 from rfl))
    exact scan_after this (by decide)
  · intro t ms _ ih
    left
    rw [scanAll_cons, scanAll_append]
    exact scan_after ih (by decide)
  · left; rfl
  · left; rfl
  · left; rfl
  · intro w1 t w2 v h1 _ h2 ih
    have e1 : scanAll 0 w1 = 0 := scan_out fun c hc => by rcases h1 c hc with rfl | rfl | rfl | rfl <;> decide
    rw [scanAll_append, scanAll_append, e1]
    exact scan_ws h2 ih
  · intro w1 t w2 ts v vs h1 _ h2 _ ih ih2
    have e1 : scanAll 0 w1 = 0 := scan_out fun c hc => by rcases h1 c hc with rfl | rfl | rfl | rfl <;> decide
    rw [scanAll_append, scanAll_append, e1, scanAll_append, scanAll_cons, scan_after (scan_ws h2 ih) (by decide)]
    exact ih2
  · intro w1 k w2 w3 t w4 key v h1 hk h2 h3 _ h4 ih
    have e1 : scanAll 0 w1 = 0 := scan_out fun c hc => by rcases h1 c hc with rfl | rfl | rfl | rfl <;> decide
    have e3 : scanAll 0 w3 = 0 := scan_out fun c hc => by rcases h3 c hc with rfl | rfl | rfl | rfl <;> decide
    have q : scan 0 34 = 1 := rfl
    have q' : scan 1 34 = 3 := rfl
    rw [scanAll_append, e1, scanAll_cons, q, scanAll_append, scan_chars hk, scanAll_cons, q', scanAll_append, scanAll_cons,
      scan_after (scan_ws h2 (Or.inr rfl)) (by decide), scanAll_append, e3, scanAll_append]
    exact scan_ws h4 ih
  · intro w1 k w2 w3 t w4 key ts v ms h1 hk h2 h3 _ h4 _ ih ih2
    have e1 : scanAll 0 w1 = 0 := scan_out fun c hc => by rcases h1 c hc with rfl | rfl | rfl | rfl <;> decide
    have e3 : scanAll 0 w3 = 0 := scan_out fun c hc => by rcases h3 c hc with rfl | rfl | rfl | rfl <;> decide
    have q : scan 0 34 = 1 := rfl
    have q' : scan 1 34 = 3 := rfl
    rw [scanAll_append, e1, scanAll_cons, q, scanAll_append, scan_chars hk, scanAll_cons, q', scanAll_append, scanAll_cons,
      scan_after (scan_ws h2 (Or.inr rfl)) (by decide), scanAll_append, e3, scanAll_append, scanAll_append, scanAll_cons,
      scan_after (scan_ws h4 ih) (by decide)]
    exact ih2

theorem scan_jsonText {t : Bytes} {v : JVal} (h : JsonText t v) : scanAll 0 t = 0 ∨ scanAll 0 t = 3 := by
  obtain ⟨_, w1, t, w2, rfl, h1, h2, h3⟩ := h
  have e1 : scanAll 0 w1 = 0 := scan_out fun c hc => by rcases h1 c hc with rfl | rfl | rfl | rfl <;> decide
  rw [scanAll_append, e1, scanAll_append]
  exact scan_ws h3 (scan_value h2)

theorem decimal_scan (n : Nat) : scanAll 0 (decimal n) = 0 ∧ scanAll 3 (decimal n) = 4 := by
  have hi := decimal_int n
  constructor
  · apply scan_out
    intro c hc e
    have := hi.digits c hc
    subst e
    revert this; decide
  · cases hd : decimal n with
    | nil => exact absurd hd hi.nonempty
    | cons c cs =>
      have h1 := hi.digits c (by rw [hd]; simp)
      rw [scanAll_cons]
      have : scan 3 c = 4 := by
        rw [scan, if_neg]
        rintro (rfl | rfl | rfl | rfl | rfl | rfl | rfl | rfl) <;> (revert h1; decide)
      rw [this]
      exact scan_bad cs

theorem rrsig_scan {s : RRSig} (h : ∀ c ∈ s.name.bytes, c ≠ 34 ∧ c ≠ 92) : scanAll 0 (RR.json (.rrsig s)) = 4 := by
  simp only [RR.json, RRSig.json, scanAll_append]
  rw [show scanAll 0 (ascii "{\"type\":\"ds\",\"name\":\"") = 1 by decide, scan_plain h,
    show scanAll 1 (ascii "\",\"signed_record_type\":") = 0 by decide, (decimal_scan _).1,
    show scanAll 0 (ascii ",\"alg\":") = 0 by decide, (decimal_scan _).1,
    show scanAll 0 (ascii ",\"signed_labels\":") = 0 by decide, (decimal_scan _).1,
    show scanAll 0 (ascii ",\"orig_ttl\":") = 0 by decide, (decimal_scan _).1,
    show scanAll 0 (ascii ",\"expiration\"") = 3 by decide, (decimal_scan _).2]
  simp only [scan_bad]

end Dnssec
