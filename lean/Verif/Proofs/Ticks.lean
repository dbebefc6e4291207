import Verif.Model.Ticks
import Verif.Proofs.DebugQuery

/-! # Counting steps of the parser -/

namespace Dnssec

open Spec

namespace Ticked

variable {α β : Type}

@[simp] theorem charge_res (n : Nat) (r : Res Unit α) : (charge n r).res = r := rfl
@[simp] theorem charge_ticks (n : Nat) (r : Res Unit α) : (charge n r).ticks = n := rfl
@[simp] theorem map_res (f : α → β) (m : Ticked α) : (m.map f).res = m.res.map f := rfl
@[simp] theorem map_ticks (f : α → β) (m : Ticked α) : (m.map f).ticks = m.ticks := rfl
@[simp] theorem pure_res (a : α) : (pure a : Ticked α).res = .ok a := rfl
@[simp] theorem pure_ticks (a : α) : (pure a : Ticked α).ticks = 0 := rfl

@[simp] theorem bind_res (m : Ticked α) (f : α → Ticked β) : (m >>= f).res = m.res >>= fun a => (f a).res := by
  show (Ticked.bind m f).res = Res.bind m.res _
  unfold Ticked.bind
  cases m.res <;> rfl

theorem bind_ticks (m : Ticked α) (f : α → Ticked β) :
    (m >>= f).ticks = m.ticks + match m.res with | .ok a => (f a).ticks | _ => 0 := by
  show (Ticked.bind m f).ticks = _
  unfold Ticked.bind
  cases m.res <;> rfl

@[simp] theorem ite_res {c : Prop} [Decidable c] (a b : Ticked α) : (if c then a else b).res = if c then a.res else b.res := by
  split <;> rfl

end Ticked

/-! ### The counter changes nothing -/

theorem readLabelsLoopT_res (wire : Bytes) (jump : Option (Nat → Bytes → Ticked Bytes)) :
    ∀ (fuel : Nat) (inp name : Bytes), (readLabelsLoopT wire jump fuel inp name).res =
      readLabelsLoop wire (jump.map fun f offs name => (f offs name).res) fuel inp name := by
  intro fuel
  induction fuel with
  | zero => intro inp name; rfl
  | succ fuel ih =>
    intro inp name
    unfold readLabelsLoopT readLabelsLoop
    cases inp with
    | nil => rfl
    | cons lenb inp =>
      simp only
      cases jump with
      | none => simp only [Option.map_none, Ticked.ite_res, Ticked.charge_res, Ticked.bind_res, Res.ok_bind, ih]
      | some f =>
        simp only [Option.map_some, Ticked.ite_res, Ticked.charge_res, Ticked.bind_res, Res.ok_bind, ih]
        cases inp with
        | nil => rfl
        | cons lo inp => simp only [Ticked.ite_res, Ticked.charge_res, Ticked.bind_res, Res.ok_bind, Ticked.map_res]

theorem readLabelsT_res (wire : Bytes) : ∀ (limit : Nat) (inp name : Bytes),
    (readLabelsT wire limit inp name).res = readLabels wire limit inp name := by
  intro limit
  induction limit with
  | zero => intro inp name; exact readLabelsLoopT_res ..
  | succ limit ih =>
    intro inp name
    rw [readLabelsT, readLabels, readLabelsLoopT_res]
    simp only [Option.map_some, Ticked.map_res, ih]

@[simp] theorem readNameT_res (wire inp : Bytes) : (readNameT wire inp).res = readName wire inp := by
  unfold readNameT readName
  rw [Ticked.bind_res, readLabelsT_res]
  rfl

@[simp] theorem readU8T_res (inp : Bytes) : (readU8T inp).res = readU8 inp := rfl
@[simp] theorem readU16T_res (inp : Bytes) : (readU16T inp).res = readU16 inp := rfl
@[simp] theorem readU32T_res (inp : Bytes) : (readU32T inp).res = readU32 inp := rfl

@[simp] theorem readU8LenPrefixedT_res (inp : Bytes) : (readU8LenPrefixedT inp).res = readU8LenPrefixed inp := by
  unfold readU8LenPrefixedT readU8LenPrefixed
  cases inp with
  | nil => rfl
  | cons => simp

theorem readBitmapLoopT_res : ∀ (fuel : Nat) (inp : Bytes) (res : FixedBytes 8192),
    (readBitmapLoopT fuel inp res).res = readBitmapLoop fuel inp res := by
  intro fuel
  induction fuel with
  | zero => intro inp res; rfl
  | succ fuel ih =>
    intro inp res
    unfold readBitmapLoopT readBitmapLoop
    match inp with
    | [] => rfl
    | [_] => rfl
    | block :: len :: rest =>
      simp only
      split
      · rfl
      · split
        · simp [ih]
        · rfl

@[simp] theorem readNsecTypesBitmapT_res (inp : Bytes) : (readNsecTypesBitmapT inp).res = readNsecTypesBitmap inp := by
  unfold readNsecTypesBitmapT readNsecTypesBitmap
  simp [readBitmapLoopT_res]

@[simp] theorem txtReadLoopT_res : ∀ (fuel : Nat) (data acc : Bytes), (txtReadLoopT fuel data acc).res = txtReadLoop fuel data acc := by
  intro fuel
  induction fuel with
  | zero => intro data acc; rfl
  | succ fuel ih =>
    intro data acc
    unfold txtReadLoopT txtReadLoop
    cases data with
    | nil => rfl
    | cons => simp [ih]

@[simp] theorem readRDataT_res (dbg : Bool) (wire : Bytes) (ty : UInt16) (name : Name) (data : Bytes) :
    (readRDataT dbg wire ty name data).res = readRData dbg wire ty name data := by
  unfold readRDataT readRData
  have one : ∀ {α β : Type} (mk : Name → α) (f : α → β),
      ((readName wire data).bind fun x => (debugAssert dbg x.2.isEmpty).bind fun _ => Res.ok (f (mk x.1))) =
      ((readName wire data).bind fun x => (debugAssert dbg x.2.isEmpty).bind fun _ => Res.ok (mk x.1)).map f := by
    intro α β mk f
    cases readName wire data with
    | ok x => simp only [Res.bind]; cases debugAssert dbg x.2.isEmpty <;> rfl
    | err e => rfl
    | panic => rfl
  have one' : ∀ {α : Type} (mk : Name → α) (f : α → RR),
      (readOneNameT dbg wire (fun n => f (mk n)) data).res =
        ((readName wire data).bind fun x => (debugAssert dbg x.2.isEmpty).bind fun _ => Res.ok (mk x.1)).map f := by
    intro α mk f
    rw [← one]
    unfold readOneNameT
    simp only [Ticked.bind_res, readNameT_res, Ticked.charge_res]
    rfl
  simp only [Ticked.ite_res, Ticked.map_res, Ticked.charge_res]
  rw [show (readOneNameT dbg wire (fun n => RR.ns ⟨name, n⟩) data).res = (NS.read dbg wire name data).map .ns from one' (NS.mk name) .ns,
    show (readOneNameT dbg wire (fun n => RR.cname ⟨name, n⟩) data).res = (CName.read dbg wire name data).map .cname from one' (CName.mk name) .cname,
    show (readOneNameT dbg wire (fun n => RR.dname ⟨name, n⟩) data).res = (DName.read dbg wire name data).map .dname from one' (DName.mk name) .dname]
  have ht : (txtReadLoopT data.length data []).res.map (fun d => RR.txt ⟨name, d⟩) = (Txt.read name data).map .txt := by
    rw [txtReadLoopT_res]
    unfold Txt.read
    cases txtReadLoop data.length data [] <;> rfl
  rw [ht]
  have h1 : (TLSA.readT name data).res = TLSA.read name data := by
    unfold TLSA.readT TLSA.read; simp only [Ticked.bind_res, readU8T_res, Ticked.charge_res, Res.pure_eq]
  have h2 : (DnsKey.readT name data).res = DnsKey.read name data := by
    unfold DnsKey.readT DnsKey.read; simp only [Ticked.bind_res, readU8T_res, readU16T_res, Ticked.charge_res, Res.pure_eq]
  have h3 : (DS.readT name data).res = DS.read name data := by
    unfold DS.readT DS.read; simp only [Ticked.bind_res, readU8T_res, readU16T_res, Ticked.charge_res, Res.pure_eq]
  have h4 : (RRSig.readT wire name data).res = RRSig.read wire name data := by
    unfold RRSig.readT RRSig.read
    simp only [Ticked.bind_res, readU8T_res, readU16T_res, readU32T_res, readNameT_res, Ticked.charge_res, Res.pure_eq]
  have h5 : (NSec.readT wire name data).res = NSec.read wire name data := by
    unfold NSec.readT NSec.read
    simp only [Ticked.bind_res, readNameT_res, readNsecTypesBitmapT_res, Ticked.pure_res, Res.pure_eq]
  have h6 : (NSec3.readT name data).res = NSec3.read name data := by
    unfold NSec3.readT NSec3.read
    simp only [Ticked.bind_res, readU8T_res, readU16T_res, readU8LenPrefixedT_res, readNsecTypesBitmapT_res, Ticked.pure_res, Res.pure_eq]
  rw [h1, h2, h3, h4, h5, h6]

@[simp] theorem parseWirePacketRRT_res (dbg : Bool) (wire inp : Bytes) :
    (parseWirePacketRRT dbg wire inp).res = parseWirePacketRR dbg wire inp := by
  unfold parseWirePacketRRT parseWirePacketRR
  simp only [Ticked.bind_res, readNameT_res, readU16T_res, readU32T_res, Ticked.ite_res, Ticked.charge_res, readRDataT_res, Ticked.pure_res,
    Res.pure_eq]

@[simp] theorem parseRRT_res (dbg : Bool) (inp : Bytes) : (parseRRT dbg inp).res = parseRR dbg inp := by
  unfold parseRRT parseRR; simp

theorem parseRRStreamLoopT_res (dbg : Bool) : ∀ (fuel : Nat) (inp : Bytes) (res : List RR),
    (parseRRStreamLoopT dbg fuel inp res).res = parseRRStreamLoop dbg fuel inp res := by
  intro fuel
  induction fuel with
  | zero => intro inp res; rfl
  | succ fuel ih =>
    intro inp res
    unfold parseRRStreamLoopT parseRRStreamLoop
    simp only [Ticked.ite_res, Ticked.charge_res, Ticked.bind_res, parseRRT_res, ih]
    split
    · rfl
    · cases parseRR dbg inp <;> rfl

theorem parseRRStreamT_res (dbg : Bool) (inp : Bytes) : (parseRRStreamT dbg inp).res = parseRRStream dbg inp :=
  parseRRStreamLoopT_res ..

theorem readHeaderT_res (resp : Bytes) : (readHeaderT resp).res = readHeader resp := by
  unfold readHeaderT readHeader
  simp only [Ticked.bind_res, readNameT_res, readU16T_res, Ticked.ite_res, Ticked.charge_res, Ticked.pure_res, Res.pure_eq]

theorem answersLoopT_res (dbg : Bool) (resp : Bytes) : ∀ (n : Nat) (st : HState),
    (answersLoopT dbg resp n st).1 = answersLoop dbg resp n st := by
  intro n
  induction n with
  | zero => intro st; rfl
  | succ n ih =>
    intro st
    unfold answersLoopT answersLoop
    simp only [parseWirePacketRRT_res]
    cases parseWirePacketRR dbg resp st.read with
    | ok x => exact ih _
    | err e => rfl
    | panic => rfl

theorem authoritiesLoopT_res (dbg : Bool) (resp : Bytes) : ∀ (n : Nat) (st : HState),
    (authoritiesLoopT dbg resp n st).1 = authoritiesLoop dbg resp n st := by
  intro n
  induction n with
  | zero => intro st; rfl
  | succ n ih =>
    intro st
    unfold authoritiesLoopT authoritiesLoop
    simp only [parseWirePacketRRT_res]
    cases parseWirePacketRR dbg resp st.read with
    | ok x =>
      simp only
      split
      · exact ih _
      · exact ih _
    | err e => rfl
    | panic => rfl

theorem handleResponseT_res (dbg : Bool) (resp proof : Bytes) (names : List Name) :
    (handleResponseT dbg resp proof names).1 = handleResponse dbg resp proof names := by
  unfold handleResponseT handleResponse
  simp only [readHeaderT_res]
  cases readHeader resp with
  | err e => rfl
  | panic => rfl
  | ok x =>
    obtain ⟨⟨an, ns⟩, body⟩ := x
    simp only [answersLoopT_res, authoritiesLoopT_res]
    cases answersLoop dbg resp an.toNat ⟨body, proof, names, 0xffffffff⟩ with
    | mk st r =>
      cases r with
      | err e => rfl
      | panic => rfl
      | ok u =>
        simp only
        cases authoritiesLoop dbg resp ns.toNat st with
        | mk st' r' => cases r' <;> rfl

/-! ### Names -/

theorem UInt8.toNat_le_255 (b : UInt8) : b.toNat ≤ 255 := by have := b.toNat_lt; omega

theorem readLabelsLoopT_ticks {wire : Bytes} {jump : Option (Nat → Bytes → Ticked Bytes)} {k : Nat}
    (hj : ∀ f, jump = some f → ∀ offs name, name.length ≤ 255 → (f offs name).ticks + 2 ≤ (255 - name.length) + 256 + k ∧
      ∀ r, (f offs name).res = .ok r → r.length ≤ 255) :
    ∀ (fuel : Nat) (inp name : Bytes), name.length ≤ 255 →
      (readLabelsLoopT wire jump fuel inp name).ticks ≤ (255 - name.length) + 256 + k ∧
      ∀ r rest, (readLabelsLoopT wire jump fuel inp name).res = .ok (r, rest) → r.length ≤ 255 := by
  intro fuel
  induction fuel with
  | zero => intro inp name _; simp [readLabelsLoopT]
  | succ fuel ih =>
    intro inp name hn
    unfold readLabelsLoopT
    cases inp with
    | nil => simp
    | cons lenb inp =>
      simp only
      have hlen := UInt8.toNat_le_255 lenb
      by_cases h0 : lenb.toNat = 0
      · rw [if_pos h0]
        refine ⟨by simp; omega, ?_⟩
        simp only [Ticked.charge_res, Res.ok.injEq, Prod.mk.injEq]
        rintro r rest ⟨rfl, _⟩
        split
        · simp
        · exact hn
      · rw [if_neg h0]
        have hlabel : ∀ t : Ticked (Bytes × Bytes), t = (if inp.length ≤ lenb.toNat then Ticked.charge 1 (Res.err ()) else
            if utf8Valid (List.take lenb.toNat inp) = true then
              if (name ++ List.take lenb.toNat inp ++ [dot]).length > 255 then Ticked.charge (1 + lenb.toNat) (Res.err ())
              else do
                Ticked.charge (1 + lenb.toNat) (Res.ok ())
                readLabelsLoopT wire jump fuel (List.drop lenb.toNat inp) (name ++ List.take lenb.toNat inp ++ [dot])
            else Ticked.charge (1 + lenb.toNat) (Res.err ())) →
            t.ticks ≤ (255 - name.length) + 256 + k ∧ ∀ r rest, t.res = .ok (r, rest) → r.length ≤ 255 := by
          intro t ht
          by_cases h1 : inp.length ≤ lenb.toNat
          · rw [if_pos h1] at ht; rw [ht]; simp; omega
          · rw [if_neg h1] at ht
            by_cases h2 : utf8Valid (List.take lenb.toNat inp) = true
            · rw [if_pos h2] at ht
              by_cases h3 : (name ++ List.take lenb.toNat inp ++ [dot]).length > 255
              · rw [if_pos h3] at ht; rw [ht]; simp; omega
              · rw [if_neg h3] at ht
                obtain ⟨i1, i2⟩ := ih (List.drop lenb.toNat inp) (name ++ List.take lenb.toNat inp ++ [dot]) (by omega)
                rw [ht]
                simp only [Ticked.bind_ticks, Ticked.bind_res, Ticked.charge_ticks, Ticked.charge_res, Res.ok_bind]
                refine ⟨?_, i2⟩
                simp only [List.length_append, List.length_take, List.length_cons, List.length_nil] at i1 h3
                omega
            · rw [if_neg h2] at ht; rw [ht]; simp; omega
        cases jump with
        | none => exact hlabel _ rfl
        | some f =>
          simp only
          by_cases hc : 0xc0 ≤ lenb.toNat
          · rw [if_pos hc]
            cases inp with
            | nil => simp; omega
            | cons lo inp =>
              simp only
              split
              · simp; omega
              · obtain ⟨j1, j2⟩ := hj f rfl (((lenb.toNat &&& 0x3f) <<< 8) ||| lo.toNat) name hn
                simp only [Ticked.bind_ticks, Ticked.bind_res, Ticked.charge_ticks, Ticked.charge_res, Res.ok_bind, Ticked.map_ticks,
                  Ticked.map_res]
                refine ⟨by omega, ?_⟩
                intro r rest hr
                cases hf : (f (((lenb.toNat &&& 0x3f) <<< 8) ||| lo.toNat) name).res with
                | ok r' =>
                  rw [hf] at hr
                  simp only [Res.map, Res.ok.injEq, Prod.mk.injEq] at hr
                  exact hr.1 ▸ j2 r' hf
                | err e => rw [hf] at hr; exact nomatch hr
                | panic => rw [hf] at hr; exact nomatch hr
          · rw [if_neg hc]
            exact hlabel _ rfl

theorem readLabelsT_ticks (wire : Bytes) : ∀ (limit : Nat) (inp name : Bytes), name.length ≤ 255 →
    (readLabelsT wire limit inp name).ticks ≤ (255 - name.length) + 256 + 2 * limit ∧
    ∀ r rest, (readLabelsT wire limit inp name).res = .ok (r, rest) → r.length ≤ 255 := by
  intro limit
  induction limit with
  | zero => intro inp name hn; exact readLabelsLoopT_ticks (k := 0) (by simp) _ _ _ hn
  | succ limit ih =>
    intro inp name hn
    refine readLabelsLoopT_ticks (k := 2 * (limit + 1)) ?_ _ _ _ hn
    intro f hf offs name hn
    simp only [Option.some.injEq] at hf
    subst hf
    obtain ⟨i1, i2⟩ := ih (wire.drop offs) name hn
    refine ⟨by simp only [Ticked.map_ticks]; omega, ?_⟩
    intro r hr
    simp only [Ticked.map_res] at hr
    cases hf : (readLabelsT wire limit (wire.drop offs) name).res with
    | ok x =>
      rw [hf] at hr
      simp only [Res.map, Res.ok.injEq] at hr
      exact hr ▸ i2 x.1 x.2 hf
    | err e => rw [hf] at hr; exact nomatch hr
    | panic => rw [hf] at hr; exact nomatch hr

theorem readNameT_ticks (wire inp : Bytes) : (readNameT wire inp).ticks ≤ 1276 := by
  obtain ⟨h1, h2⟩ := readLabelsT_ticks wire 255 inp [] (by simp)
  unfold readNameT
  rw [Ticked.bind_ticks]
  cases h : (readLabelsT wire 255 inp []).res with
  | ok x =>
    have := h2 x.1 x.2 h
    simp only [Ticked.charge_ticks]
    simp only [List.length_nil] at h1
    omega
  | err e => simp only [List.length_nil] at h1 ⊢; omega
  | panic => simp only [List.length_nil] at h1 ⊢; omega

/-! ### Readers -/

/-- The octets a reader leaves. -/
def left {α : Type} : Res Unit (α × Bytes) → Nat
  | .ok (_, rest) => rest.length
  | _ => 0

/-- The reader touches at most `c` octets more than it consumes. -/
def Costs {α : Type} (m : Ticked (α × Bytes)) (inp : Bytes) (c : Nat) : Prop := m.ticks + left m.res ≤ c + inp.length

theorem Costs.bind {α β : Type} {m : Ticked (α × Bytes)} {f : α × Bytes → Ticked β} {inp : Bytes} {c d : Nat} {l : Res Unit β → Nat}
    (h : Costs m inp c) (hl : ∀ r, (∀ x, r ≠ .ok x) → l r = 0)
    (hf : ∀ a rest, m.res = .ok (a, rest) → (f (a, rest)).ticks + l (f (a, rest)).res ≤ d + rest.length) :
    (m >>= f).ticks + l (m >>= f).res ≤ c + d + inp.length := by
  rw [Ticked.bind_ticks, Ticked.bind_res]
  unfold Costs at h
  cases hm : m.res with
  | ok x =>
    obtain ⟨a, rest⟩ := x
    have := hf a rest hm
    rw [hm] at h
    simp only [left, Res.ok_bind] at h ⊢
    omega
  | err e => rw [hm] at h; simp only [left, Res.err_bind] at h ⊢; rw [hl _ (by simp)]; omega
  | panic => rw [hm] at h; simp only [left, Res.panic_bind] at h ⊢; rw [hl _ (by simp)]; omega

theorem left_zero {α : Type} : ∀ r : Res Unit (α × Bytes), (∀ x, r ≠ .ok x) → left r = 0
  | .ok x, h => absurd rfl (h x)
  | .err _, _ => rfl
  | .panic, _ => rfl

theorem readU8T_costs (inp : Bytes) : Costs (readU8T inp) inp 1 := by
  unfold Costs readU8T
  cases inp <;> simp [readU8, left]

theorem readU16T_costs (inp : Bytes) : Costs (readU16T inp) inp 2 := by
  unfold Costs readU16T
  match inp with
  | [] => simp [readU16, left]
  | [_] => simp [readU16, left]
  | a :: b :: r => simp [readU16, left]; omega

theorem readU32T_costs (inp : Bytes) : Costs (readU32T inp) inp 4 := by
  unfold Costs readU32T
  match inp with
  | [] => simp [readU32, left]
  | [_] => simp [readU32, left]
  | [_, _] => simp [readU32, left]
  | [_, _, _] => simp [readU32, left]
  | a :: b :: c :: d :: r => simp [readU32, left]; omega

theorem readU8LenPrefixedT_costs (inp : Bytes) : Costs (readU8LenPrefixedT inp) inp 0 := by
  unfold Costs readU8LenPrefixedT
  cases inp with
  | nil => simp [left]
  | cons len inp =>
    simp only
    split
    · simp [left]
    · simp [left]; omega

theorem readNameT_costs (wire inp : Bytes) : Costs (readNameT wire inp) inp 1276 := by
  unfold Costs
  have h := readNameT_ticks wire inp
  rw [readNameT_res]
  cases hr : readName wire inp with
  | ok x =>
    obtain ⟨n, rest⟩ := x
    obtain ⟨q, e⟩ := readName_suffix hr
    have : rest.length ≤ inp.length := by rw [e]; simp
    simp only [left]; omega
  | err e => simp only [left]; omega
  | panic => simp only [left]; omega

theorem readBitmapLoopT_ticks : ∀ (fuel : Nat) (inp : Bytes) (res : FixedBytes 8192), (readBitmapLoopT fuel inp res).ticks ≤ inp.length := by
  intro fuel
  induction fuel with
  | zero => intro inp res; simp [readBitmapLoopT]
  | succ fuel ih =>
    intro inp res
    unfold readBitmapLoopT
    match inp with
    | [] => simp
    | [_] => simp
    | block :: len :: rest =>
      simp only
      split
      · simp
      · split
        · rename_i h1 h2
          have := ih (rest.drop len.toNat) (copyInto res (block.toNat * 32) (rest.take len.toNat) h2)
          simp only [Ticked.bind_ticks, Ticked.charge_ticks, Ticked.charge_res]
          simp only [List.length_drop, List.length_cons] at this ⊢
          omega
        · simp

theorem readNsecTypesBitmapT_ticks (inp : Bytes) : (readNsecTypesBitmapT inp).ticks ≤ 8192 + inp.length := by
  unfold readNsecTypesBitmapT
  have := readBitmapLoopT_ticks inp.length inp NSecTypeMask.new.bytes
  simp only [Ticked.bind_ticks, Ticked.charge_ticks, Ticked.charge_res, Ticked.map_ticks]
  omega

theorem txtReadLoopT_ticks : ∀ (fuel : Nat) (data acc : Bytes), (txtReadLoopT fuel data acc).ticks ≤ data.length := by
  intro fuel
  induction fuel with
  | zero => intro data acc; simp [txtReadLoopT]
  | succ fuel ih =>
    intro data acc
    unfold txtReadLoopT
    cases data with
    | nil => simp
    | cons len data =>
      simp only
      split
      · simp
      · have := ih (data.drop len.toNat) (acc ++ data.take len.toNat)
        simp only [Ticked.bind_ticks, Ticked.charge_ticks, Ticked.charge_res]
        simp only [List.length_drop, List.length_cons] at this ⊢
        omega

/-- `Costs.bind` for functions that return no rest. -/
theorem Costs.bind' {α β : Type} {m : Ticked (α × Bytes)} {f : α × Bytes → Ticked β} {inp : Bytes} {c d : Nat}
    (h : Costs m inp c) (hf : ∀ a rest, (f (a, rest)).ticks ≤ d + rest.length) : (m >>= f).ticks ≤ c + d + inp.length := by
  have := Costs.bind (l := fun _ => 0) (d := d) h (fun _ _ => rfl) (fun a rest _ => hf a rest)
  exact this

theorem ite_ticks_le {α : Type} {c : Prop} [Decidable c] {a b : Ticked α} {n : Nat} (ha : a.ticks ≤ n) (hb : b.ticks ≤ n) :
    (if c then a else b).ticks ≤ n := by
  by_cases h : c
  · rw [if_pos h]; exact ha
  · rw [if_neg h]; exact hb

theorem readRDataT_ticks (dbg : Bool) (wire : Bytes) (ty : UInt16) (name : Name) (data : Bytes) :
    (readRDataT dbg wire ty name data).ticks ≤ 9468 + data.length := by
  have one : ∀ {α : Type} (mk : Name → α), (readOneNameT dbg wire mk data).ticks ≤ 9468 + data.length := by
    intro α mk
    unfold readOneNameT
    have := Costs.bind' (d := 0) (readNameT_costs wire data) (f := fun x => do
      Ticked.charge 0 (debugAssert dbg x.2.isEmpty); pure (mk x.1)) (by
        intro a rest
        simp only [Ticked.bind_ticks, Ticked.charge_ticks, Ticked.charge_res, Ticked.pure_ticks]
        cases debugAssert dbg rest.isEmpty <;> simp)
    exact Nat.le_trans this (by omega)
  unfold readRDataT
  refine ite_ticks_le ?_ (ite_ticks_le ?_ (ite_ticks_le (one _) (ite_ticks_le ?_ (ite_ticks_le (one _) (ite_ticks_le (one _)
    (ite_ticks_le ?_ (ite_ticks_le ?_ (ite_ticks_le ?_ (ite_ticks_le ?_ (ite_ticks_le ?_ (ite_ticks_le ?_ ?_)))))))))))
  · simp
  · simp
  · have := txtReadLoopT_ticks data.length data []; simp only [Ticked.map_ticks]; omega
  · simp only [Ticked.map_ticks]
    refine Nat.le_trans (Costs.bind' (d := 2) (readU8T_costs _) fun _ _ => Costs.bind' (d := 1) (readU8T_costs _) fun _ _ =>
      Costs.bind' (d := 0) (readU8T_costs _) fun _ _ => ?_) (by omega)
    simp
  · simp only [Ticked.map_ticks]
    refine Nat.le_trans (Costs.bind' (d := 2) (readU16T_costs _) fun _ _ => Costs.bind' (d := 1) (readU8T_costs _) fun _ _ =>
      Costs.bind' (d := 0) (readU8T_costs _) fun _ _ => ?_) (by omega)
    simp
  · simp only [Ticked.map_ticks]
    refine Nat.le_trans (Costs.bind' (d := 2) (readU16T_costs _) fun _ _ => Costs.bind' (d := 1) (readU8T_costs _) fun _ _ =>
      Costs.bind' (d := 0) (readU8T_costs _) fun _ _ => ?_) (by omega)
    simp
  · simp only [Ticked.map_ticks]
    refine Nat.le_trans (Costs.bind' (d := 1292) (readU16T_costs _) fun _ _ => Costs.bind' (d := 1291) (readU8T_costs _) fun _ _ =>
      Costs.bind' (d := 1290) (readU8T_costs _) fun _ _ => Costs.bind' (d := 1286) (readU32T_costs _) fun _ _ =>
      Costs.bind' (d := 1282) (readU32T_costs _) fun _ _ => Costs.bind' (d := 1278) (readU32T_costs _) fun _ _ =>
      Costs.bind' (d := 1276) (readU16T_costs _) fun _ _ => Costs.bind' (d := 0) (readNameT_costs _ _) fun _ _ => ?_) (by omega)
    simp
  · simp only [Ticked.map_ticks]
    refine Costs.bind' (d := 8192) (readNameT_costs _ _) fun _ _ => ?_
    have := readNsecTypesBitmapT_ticks ‹_›
    rw [Ticked.bind_ticks]
    cases (readNsecTypesBitmapT ‹_›).res <;> simp <;> omega
  · simp only [Ticked.map_ticks]
    refine Nat.le_trans (Costs.bind' (d := 8195) (readU8T_costs _) fun _ _ => Costs.bind' (d := 8194) (readU8T_costs _) fun _ _ =>
      Costs.bind' (d := 8192) (readU16T_costs _) fun _ _ => Costs.bind' (d := 8192) (readU8LenPrefixedT_costs _) fun _ _ =>
      Costs.bind' (d := 8192) (readU8LenPrefixedT_costs _) fun _ _ => ?_) (by omega)
    have := readNsecTypesBitmapT_ticks ‹_›
    rw [Ticked.bind_ticks]
    cases (readNsecTypesBitmapT ‹_›).res <;> simp <;> omega
  · simp

theorem Costs.ite {α : Type} {c : Prop} [Decidable c] {a b : Ticked (α × Bytes)} {n : Nat} (ha : ¬ c → a.ticks + left a.res ≤ n)
    (hb : c → b.ticks + left b.res ≤ n) : (if c then b else a).ticks + left (if c then b else a).res ≤ n := by
  by_cases h : c
  · rw [if_pos h]; exact hb h
  · rw [if_neg h]; exact ha h

theorem parseWirePacketRRT_costs (dbg : Bool) (wire inp : Bytes) : Costs (parseWirePacketRRT dbg wire inp) inp 10754 := by
  unfold Costs parseWirePacketRRT
  refine Costs.bind (d := 9478) (readNameT_costs _ _) left_zero fun name r0 _ => Costs.bind (d := 9476) (readU16T_costs _) left_zero fun ty r1 _ =>
    Costs.bind (d := 9474) (readU16T_costs _) left_zero fun cls r2 _ => Costs.ite (fun _ => ?_) (fun _ => by simp [left])
  refine Costs.bind (d := 9470) (readU32T_costs _) left_zero fun ttl r3 _ => Costs.bind (d := 9468) (readU16T_costs _) left_zero fun dl r _ =>
    Costs.ite (fun hl => ?_) (fun _ => by simp [left])
  have := readRDataT_ticks dbg wire ty name (r.take dl.toNat)
  have hlen : (r.take dl.toNat).length = dl.toNat := by rw [List.length_take]; omega
  rw [Ticked.bind_ticks, Ticked.bind_res]
  cases (readRDataT dbg wire ty name (r.take dl.toNat)).res with
  | ok rr => simp only [Res.ok_bind, Ticked.pure_res, Ticked.pure_ticks, left, List.length_drop]; omega
  | err e => simp only [Res.err_bind, left]; omega
  | panic => simp only [Res.panic_bind, left]; omega

/-! ### Streams -/

theorem parse_consumes {dbg : Bool} {wire inp : Bytes} {x : RR × UInt32} {rest : Bytes}
    (h : parseWirePacketRR dbg wire inp = .ok (x, rest)) : rest.length + 11 ≤ inp.length := by
  obtain ⟨rr, ttl⟩ := x
  obtain ⟨name, ty, data, r1, h1, rfl, _, _⟩ := parseWirePacketRR_ok h
  rw [readName_iff] at h1
  obtain ⟨t, d, _⟩ := h1
  have hl : (be16 ty ++ (be16 1 ++ (be32 ttl ++ (be16 (UInt16.ofNat data.length) ++ (data ++ rest))))).length + 1 ≤ inp.length := by
    cases d with
    | stop k rest => simp
    | label k len l inp text rest _ _ _ d =>
      obtain ⟨p, e⟩ := Decodes_suffix d
      rw [e]; simp; omega
    | pointer => simp
  simp only [List.length_append, be16_length, be32_length] at hl
  omega

theorem parseRRStreamLoopT_ticks (dbg : Bool) : ∀ (fuel : Nat) (inp : Bytes) (res : List RR),
    11 * (parseRRStreamLoopT dbg fuel inp res).ticks ≤ 10765 * inp.length + 11 * 10754 := by
  intro fuel
  induction fuel with
  | zero => intro inp res; simp [parseRRStreamLoopT]
  | succ fuel ih =>
    intro inp res
    unfold parseRRStreamLoopT
    by_cases he : inp.isEmpty = true
    · rw [if_pos he]; simp
    · rw [if_neg he]
      have hc := parseWirePacketRRT_costs dbg [] inp
      unfold Costs at hc
      rw [Ticked.bind_ticks]
      have ht : (parseRRT dbg inp).ticks = (parseWirePacketRRT dbg [] inp).ticks := rfl
      rw [parseRRT_res, ht]
      unfold parseRR
      rw [parseWirePacketRRT_res] at hc
      cases hp : parseWirePacketRR dbg [] inp with
      | ok x =>
        obtain ⟨⟨rr, ttl⟩, rest⟩ := x
        have h1 := parse_consumes hp
        have h2 := ih rest (res ++ [rr])
        rw [hp] at hc
        simp only [left, Res.map] at hc ⊢
        omega
      | err e => rw [hp] at hc; simp only [left, Res.map] at hc ⊢; omega
      | panic => rw [hp] at hc; simp only [left, Res.map] at hc ⊢; omega

theorem parseRRStreamT_ticks (dbg : Bool) (inp : Bytes) : (parseRRStreamT dbg inp).ticks ≤ 979 * inp.length + 10754 := by
  have := parseRRStreamLoopT_ticks dbg inp.length inp []
  unfold parseRRStreamT
  omega

/-! ### How much is written for what is read -/

/-- The number of octets that are not zero. -/
def nonzeros (l : Bytes) : Nat := l.countP (· ≠ 0)

theorem nonzeros_append (a b : Bytes) : nonzeros (a ++ b) = nonzeros a + nonzeros b := List.countP_append

theorem nonzeros_le (l : Bytes) : nonzeros l ≤ l.length := List.countP_le_length

theorem writeWindow_nonzeros {c : Bytes} (hc : c.length = 32) (k : Nat) : (writeWindow k c).length ≤ 34 * nonzeros c := by
  rcases writeWindow_eq hc k with ⟨_, hw⟩ | ⟨w, h1, _, h3, ⟨init, lst, rfl, hl⟩, hw, _, _⟩
  · simp [hw]
  · have : 1 ≤ nonzeros c := by
      rw [h1]
      simp only [nonzeros_append]
      have : nonzeros [lst] = 1 := by simp [nonzeros, hl]
      omega
    rw [hw]
    simp only [List.length_cons]
    omega

theorem writeChunks_nonzeros : ∀ (cs : List Bytes) (k : Nat), (∀ c ∈ cs, c.length = 32) →
    (writeChunks k cs).length ≤ 34 * nonzeros cs.flatten
  | [], k, _ => by simp
  | c :: cs, k, h => by
    have a := writeWindow_nonzeros (h c (by simp)) k
    have b := writeChunks_nonzeros cs (k + 1) (fun x hx => h x (by simp [hx]))
    rw [writeChunks_cons, List.flatten_cons, nonzeros_append, List.length_append]
    omega

theorem copyInto_nonzeros (m : FixedBytes 8192) (off : Nat) (src : Bytes) (h : off + src.length ≤ 8192) :
    nonzeros (copyInto m off src h).1 ≤ nonzeros m.1 + src.length := by
  unfold copyInto
  simp only [nonzeros_append]
  have h1 := nonzeros_le src
  have h2 : nonzeros (m.1.take off) + nonzeros (m.1.drop off) = nonzeros m.1 := by
    rw [← nonzeros_append, List.take_append_drop]
  have h3 : nonzeros (m.1.drop (off + src.length)) ≤ nonzeros (m.1.drop off) := by
    rw [← List.drop_drop]
    exact (List.drop_sublist _ _).countP_le
  omega

theorem readBitmapLoop_nonzeros : ∀ (fuel : Nat) (inp : Bytes) (res m : FixedBytes 8192), readBitmapLoop fuel inp res = .ok m →
    nonzeros m.1 ≤ nonzeros res.1 + inp.length := by
  intro fuel
  induction fuel with
  | zero =>
    intro inp res m h
    simp only [readBitmapLoop, Res.ok.injEq] at h
    rw [h]; omega
  | succ fuel ih =>
    intro inp res m h
    unfold readBitmapLoop at h
    match inp with
    | [] => simp only [Res.ok.injEq] at h; rw [h]; omega
    | [_] => exact nomatch h
    | block :: len :: rest =>
      simp only at h
      split at h
      · exact nomatch h
      · split at h
        · rename_i h1 h2
          have a := ih _ _ _ h
          have b := copyInto_nonzeros res (block.toNat * 32) (rest.take len.toNat) h2
          simp only [List.length_drop, List.length_take, List.length_cons] at a b ⊢
          omega
        · exact nomatch h

theorem bitmap_written {bm : Bytes} {m : NSecTypeMask} (h : readNsecTypesBitmap bm = .ok m) :
    (writeNsecTypesBitmap m.bytes.1).length ≤ 34 * bm.length := by
  unfold readNsecTypesBitmap at h
  cases hr : readBitmapLoop bm.length bm NSecTypeMask.new.bytes with
  | ok r =>
    rw [hr] at h
    simp only [Res.map, Res.ok.injEq] at h
    subst h
    have h1 := readBitmapLoop_nonzeros _ _ _ _ hr
    have h0 : nonzeros NSecTypeMask.new.bytes.1 = 0 := by
      show (List.replicate 8192 (0 : UInt8)).countP _ = 0
      rw [List.countP_replicate]; simp
    obtain ⟨_, h2, h3⟩ := chunks32_props 256 r.1 r.1.length (by have := r.2; omega) (Nat.le_refl _)
    have h4 := writeChunks_nonzeros _ 0 h2
    rw [h3] at h4
    rw [writeNsecTypesBitmap_eq]
    show (writeChunks 0 (chunks32 r.1.length r.1)).length ≤ _
    omega
  | err e => rw [hr] at h; exact nomatch h
  | panic => rw [hr] at h; exact nomatch h

theorem name_written {msg inp : Bytes} {n : Name} {rest : Bytes} (h : readName msg inp = .ok (n, rest)) :
    (writeName n.bytes).length ≤ 256 ∧ rest.length + 1 ≤ inp.length ∧ (rest.length + 1 = inp.length → (writeName n.bytes).length = 1) := by
  have h1 := (readName_obtainable h).nameText.1.short
  have h2 := writeName_length_le n.bytes
  rw [readName_iff] at h
  obtain ⟨t, d, _, e⟩ := h
  refine ⟨by omega, ?_⟩
  cases d with
  | stop k rest => exact ⟨by simp, fun _ => by rw [e]; decide⟩
  | label k len l inp text rest hl _ _ d =>
    obtain ⟨p, e⟩ := Decodes_suffix d
    have := List.length_pos_iff.mpr hl
    refine ⟨by rw [e]; simp; omega, fun hc => ?_⟩
    rw [e] at hc
    simp only [List.length_append, List.length_cons] at hc
    omega
  | pointer => exact ⟨by simp, fun hc => by simp at hc⟩

theorem writeData_length (rr : RR) : rr.writeData.length ≤ 2 + (rdata rr).length := by
  by_cases h : ∃ t, rr = .txt t ∧ t.data = []
  · obtain ⟨t, rfl, ht⟩ := h
    obtain ⟨n, d⟩ := t
    simp only at ht
    subst ht
    rw [rdata_txt_nil]
    simp [RR.writeData, Txt.writeData, txtWriteLoop]
  · rw [writeData_eq rr (fun t e he => h ⟨t, e, he⟩)]
    simp

/-- The data of a record takes at most 34 octets for each octet read, and 256 for a name. -/
theorem rdata_written {dbg : Bool} {msg : Bytes} {ty : UInt16} {name : Name} {data : Bytes} {rr : RR}
    (h : readRData dbg msg ty name data = .ok rr) :
    (rdata rr).length ≤ 1 + 34 * data.length ∨ 2 ≤ data.length ∧ (rdata rr).length + 68 ≤ 256 + 34 * data.length := by
  have nm : ∀ {d rest : Bytes} {n : Name}, ReadsName msg d n rest →
      (writeName n.bytes).length + rest.length ≤ d.length ∨ rest.length + 2 ≤ d.length ∧ (writeName n.bytes).length ≤ 256 := by
    intro d rest n hn
    obtain ⟨a, b, c⟩ := name_written (readName_reads.mpr hn)
    rcases Nat.eq_or_lt_of_le b with e | e
    · left; have := c e; omega
    · exact Or.inr ⟨by omega, a⟩
  have hr := readRData_iff.mp h
  clear h
  generalize ty.toNat = t at hr
  cases hr with
  | a addr => left; rw [rdata_a]; simp only; omega
  | aaaa addr => left; rw [rdata_aaaa]; simp only; omega
  | ns data rest n hn _ => rw [rdata_ns]; simp only; rcases nm hn with h | h <;> first | (left; omega) | (right; omega)
  | cname data rest n hn _ => rw [rdata_cname]; simp only; rcases nm hn with h | h <;> first | (left; omega) | (right; omega)
  | dname data rest n hn _ => rw [rdata_dname]; simp only; rcases nm hn with h | h <;> first | (left; omega) | (right; omega)
  | txt ss hs =>
    left
    by_cases hd : ss.flatten = []
    · rw [hd, rdata_txt_nil]; simp
    · have := txtV_length_le hs
      rw [rdata_txt_nonempty _ hd]
      show (txtV ss.flatten).length ≤ _
      omega
  | ds => left; rw [rdata_ds]; simp; omega
  | dnskey => left; rw [rdata_dnskey]; simp; omega
  | tlsa => left; rw [rdata_tlsa]; simp; omega
  | rrsig _ _ _ _ _ _ _ _ tail sig hn =>
    rw [rdata_rrsig]
    simp only [List.length_append, List.length_cons, List.length_nil, be16_length, be32_length]
    rcases nm hn with h | h <;> first | (left; omega) | (right; omega)
  | nsec data bm next types hn hb =>
    have := bitmap_written ((readNsecTypesBitmap_iff _ _).mpr hb)
    rw [rdata_nsec, List.length_append]
    rcases nm hn with h | h <;> first | (left; simp only; omega) | (right; simp only; omega)
  | nsec3 algo flags its salt hash bm types h1 h2 hb =>
    have := bitmap_written ((readNsecTypesBitmap_iff _ _).mpr hb)
    left
    rw [rdata_nsec3]
    simp only [List.length_append, List.length_cons, List.length_nil, be16_length, charStrings, List.map, List.flatten_cons, List.flatten_nil]
    omega

/-- What is written for a record is at most 38 times as long as what was read. -/
theorem record_written {dbg : Bool} {msg inp : Bytes} {rr : RR} {ttl : UInt32} {rest : Bytes}
    (h : parseWirePacketRR dbg msg inp = .ok ((rr, ttl), rest)) : (writeRR rr ttl).length + 38 * rest.length ≤ 38 * inp.length := by
  obtain ⟨name, ty, data, r1, h1, h2, h3, h4⟩ := parseWirePacketRR_ok h
  have hw := writeData_length rr
  have hr := rdata_written h4
  obtain ⟨p1, _⟩ := readRData_props h4
  obtain ⟨a, b, c⟩ := name_written h1
  have hl : r1.length = 10 + data.length + rest.length := by
    rw [h2]; simp only [List.length_append, be16_length, be32_length]; omega
  unfold writeRR
  simp only [List.length_append, be16_length, be32_length, p1]
  rcases Nat.eq_or_lt_of_le b with e | e
  · have := c e; omega
  · omega

/-! ### Responses -/

theorem answersLoopT_ticks (dbg : Bool) (resp : Bytes) : ∀ (n : Nat) (st : HState),
    (answersLoop dbg resp n st).1.proof.length + 38 * (answersLoop dbg resp n st).1.read.length ≤ st.proof.length + 38 * st.read.length ∧
    (answersLoop dbg resp n st).1.read.length ≤ st.read.length ∧
    ((answersLoop dbg resp n st).2 = .ok () →
      11 * (answersLoopT dbg resp n st).2 + 11183 * (answersLoop dbg resp n st).1.read.length ≤ 11183 * st.read.length) ∧
    11 * (answersLoopT dbg resp n st).2 ≤ 11183 * st.read.length + 11 * 10754 := by
  intro n
  induction n with
  | zero => intro st; simp [answersLoop, answersLoopT]
  | succ n ih =>
    intro st
    rw [answersLoopT, answersLoop]
    have hc := parseWirePacketRRT_costs dbg resp st.read
    unfold Costs at hc
    rw [parseWirePacketRRT_res] at hc
    simp only [parseWirePacketRRT_res]
    cases hp : parseWirePacketRR dbg resp st.read with
    | ok x =>
      obtain ⟨⟨rr, ttl⟩, rest⟩ := x
      rw [hp] at hc
      have h1 := parse_consumes hp
      have h2 := record_written hp
      obtain ⟨i1, i2, i3, i4⟩ := ih ({ st with read := rest }.add rr ttl)
      simp only [left] at hc
      have e1 : ({ st with read := rest }.add rr ttl).proof.length = st.proof.length + (writeRR rr ttl).length := by
        simp [HState.add]
      have e2 : ({ st with read := rest }.add rr ttl).read = rest := rfl
      rw [e1, e2] at i1
      rw [e2] at i2 i3 i4
      simp only
      generalize answersLoop dbg resp n ({ st with read := rest }.add rr ttl) = X at i1 i2 i3 i4 ⊢
      generalize answersLoopT dbg resp n ({ st with read := rest }.add rr ttl) = Y at i1 i2 i3 i4 ⊢
      refine ⟨by omega, by omega, fun h => ?_, ?_⟩
      · have := i3 h; omega
      · omega
    | err e =>
      rw [hp] at hc
      simp only [left] at hc
      refine ⟨by simp, by simp, by simp, ?_⟩
      simp only
      omega
    | panic =>
      rw [hp] at hc
      simp only [left] at hc
      refine ⟨by simp, by simp, by simp, ?_⟩
      simp only
      omega

theorem authoritiesLoopT_ticks (dbg : Bool) (resp : Bytes) : ∀ (n : Nat) (st : HState),
    (authoritiesLoop dbg resp n st).1.proof.length + 38 * (authoritiesLoop dbg resp n st).1.read.length ≤ st.proof.length + 38 * st.read.length ∧
    11 * (authoritiesLoopT dbg resp n st).2 ≤ 11183 * st.read.length + 11 * 10754 := by
  intro n
  induction n with
  | zero => intro st; simp [authoritiesLoop, authoritiesLoopT]
  | succ n ih =>
    intro st
    rw [authoritiesLoopT, authoritiesLoop]
    have hc := parseWirePacketRRT_costs dbg resp st.read
    unfold Costs at hc
    rw [parseWirePacketRRT_res] at hc
    simp only [parseWirePacketRRT_res]
    cases hp : parseWirePacketRR dbg resp st.read with
    | ok x =>
      obtain ⟨⟨rr, ttl⟩, rest⟩ := x
      rw [hp] at hc
      have h1 := parse_consumes hp
      have h2 := record_written hp
      simp only [left] at hc
      simp only
      by_cases hk : keepAuthority rr = true
      · rw [if_pos hk, if_pos hk]
        obtain ⟨i1, i2⟩ := ih ({ st with read := rest }.add rr ttl)
        have e1 : ({ st with read := rest }.add rr ttl).proof.length = st.proof.length + (writeRR rr ttl).length := by
          simp [HState.add]
        have e2 : ({ st with read := rest }.add rr ttl).read = rest := rfl
        rw [e1, e2] at i1
        rw [e2] at i2
        exact ⟨by omega, by simp only; omega⟩
      · rw [if_neg hk, if_neg hk]
        obtain ⟨i1, i2⟩ := ih { st with read := rest }
        simp only at i1 i2
        exact ⟨by omega, by simp only; omega⟩
    | err e =>
      rw [hp] at hc
      simp only [left] at hc
      refine ⟨by simp, ?_⟩
      simp only
      omega
    | panic =>
      rw [hp] at hc
      simp only [left] at hc
      refine ⟨by simp, ?_⟩
      simp only
      omega

theorem readHeaderT_costs (resp : Bytes) : Costs (readHeaderT resp) resp 1292 := by
  unfold Costs readHeaderT
  refine Costs.bind (d := 1290) (readU16T_costs _) left_zero fun _ _ _ => Costs.ite (fun _ => ?_) (fun _ => by simp [left])
  refine Costs.bind (d := 1288) (readU16T_costs _) left_zero fun _ _ _ => Costs.ite (fun _ => ?_) (fun _ => by simp [left])
  refine Costs.ite (fun _ => ?_) (fun _ => by simp [left])
  refine Costs.ite (fun _ => ?_) (fun _ => by simp [left])
  refine Costs.bind (d := 1286) (readU16T_costs _) left_zero fun _ _ _ => Costs.ite (fun _ => ?_) (fun _ => by simp [left])
  refine Costs.bind (d := 1284) (readU16T_costs _) left_zero fun _ _ _ => Costs.ite (fun _ => ?_) (fun _ => by simp [left])
  refine Costs.bind (d := 1282) (readU16T_costs _) left_zero fun _ _ _ => Costs.bind (d := 1280) (readU16T_costs _) left_zero fun _ _ _ =>
    Costs.bind (d := 4) (readNameT_costs _ _) left_zero fun _ _ _ => Costs.bind (d := 2) (readU16T_costs _) left_zero fun _ _ _ =>
    Costs.bind (d := 0) (readU16T_costs _) left_zero fun _ _ _ => ?_
  simp [left]

theorem handleResponseT_ticks (dbg : Bool) (resp proof : Bytes) (names : List Name) :
    (handleResponse dbg resp proof names).1.1.length ≤ proof.length + 38 * resp.length ∧
    (handleResponseT dbg resp proof names).2 ≤ 1017 * resp.length + 12046 := by
  have hh := readHeaderT_costs resp
  unfold Costs at hh
  rw [readHeaderT_res] at hh
  unfold handleResponseT handleResponse
  simp only [readHeaderT_res]
  cases hr : readHeader resp with
  | err e => rw [hr] at hh; simp only [left] at hh ⊢; exact ⟨by omega, by omega⟩
  | panic => rw [hr] at hh; simp only [left] at hh ⊢; exact ⟨by omega, by omega⟩
  | ok x =>
    obtain ⟨⟨an, ns⟩, body⟩ := x
    have hb := (readHeader_iff resp an ns body).mp hr
    obtain ⟨fl, ar, qn, qt, qc, ⟨ah, e, hq⟩, _⟩ := hb
    have hbody : body.length ≤ resp.length := by
      obtain ⟨p, e1⟩ := readName_suffix (readName_reads.mpr hq)
      rw [e, e1]; simp; omega
    rw [hr] at hh
    simp only [left] at hh
    simp only [answersLoopT_res, authoritiesLoopT_res]
    obtain ⟨a1, a2, a3, a4⟩ := answersLoopT_ticks dbg resp an.toNat ⟨body, proof, names, 0xffffffff⟩
    cases ha : answersLoop dbg resp an.toNat ⟨body, proof, names, 0xffffffff⟩ with
    | mk st r =>
      rw [ha] at a1 a2 a3
      simp only at a1 a2 a3 a4
      cases r with
      | err e => simp only; exact ⟨by omega, by omega⟩
      | panic => simp only; exact ⟨by omega, by omega⟩
      | ok u =>
        have a3 := a3 rfl
        simp only
        obtain ⟨b1, b2⟩ := authoritiesLoopT_ticks dbg resp ns.toNat st
        cases hau : authoritiesLoop dbg resp ns.toNat st with
        | mk st' r' =>
          rw [hau] at b1
          simp only at b1
          cases r' <;> simp only <;> exact ⟨by omega, by omega⟩

/-! ### Builders -/

theorem requestLoop_proof : ∀ (ks : List Name) (b : ProofBuilder) (qs : List Bytes),
    (ProofBuilder.requestLoop ks b qs).1.proof = b.proof
  | [], b, qs => rfl
  | k :: ks, b, qs => by
    unfold ProofBuilder.requestLoop
    split
    · exact requestLoop_proof ks b qs
    · simp only
      split
      · exact requestLoop_proof ks _ _
      · exact requestLoop_proof ks _ _

theorem processResponse_growth {dbg : Bool} (b : ProofBuilder) (resp : Bytes) :
    (b.processResponse dbg resp).1.proof.length ≤ b.proof.length + 38 * resp.length := by
  have h := (handleResponseT_ticks dbg resp b.proof []).1
  unfold ProofBuilder.processResponse
  split
  · simp only; omega
  · cases hr : handleResponse dbg resp b.proof [] with
    | mk x r =>
      obtain ⟨proof, names⟩ := x
      rw [hr] at h
      simp only at h
      cases r with
      | err e => exact h
      | panic => exact h
      | ok ttl =>
        simp only
        have := requestLoop_proof (dedup (sortBy Name.cmp names))
          { b with proof := proof, minTtl := min b.minTtl ttl, pending := b.pending - 1 } []
        split <;> simp only [this] <;> exact h

theorem run_size {dbg : Bool} {name : Name} {ty : UInt16} {acc rej qs : List Bytes} {b : ProofBuilder} (h : Run dbg name ty acc rej qs b) :
    b.proof.length ≤ 38 * (acc ++ rej).flatten.length := by
  induction h with
  | new => simp [ProofBuilder.new]
  | @accept acc rej qs b b' resp more _ h ih =>
    have := processResponse_growth (dbg := dbg) b resp
    rw [h] at this
    simp only [List.flatten_append, List.length_append, List.flatten_cons, List.flatten_nil, List.length_nil] at this ih ⊢
    omega
  | @reject acc rej qs b b' resp _ h ih =>
    have := processResponse_growth (dbg := dbg) b resp
    rw [h] at this
    simp only [List.flatten_append, List.length_append, List.flatten_cons, List.flatten_nil, List.length_nil] at this ih ⊢
    omega

theorem stream_count {dbg : Bool} {inp : Bytes} {rrs : List RR} (h : parseRRStream dbg inp = .ok rrs) : 11 * rrs.length ≤ inp.length := by
  obtain ⟨ps, rfl, rfl, hp⟩ := (parseRRStream_iff dbg inp rrs).mp h
  clear h
  induction ps with
  | nil => simp
  | cons p ps ih =>
    have h1 := ih (fun q hq => hp q (by simp [hq]))
    have h2 := hp p (by simp)
    unfold parseRR at h2
    cases hw : parseWirePacketRR dbg [] p.1 with
    | ok x =>
      have := parse_consumes (x := x.1) (rest := x.2) hw
      simp only [List.map_cons, List.flatten_cons, List.length_append, List.length_cons, List.length_map] at h1 ⊢
      omega
    | err e => rw [hw] at h2; exact nomatch h2
    | panic => rw [hw] at h2; exact nomatch h2

theorem frames_length (acc : List Bytes) : acc.flatten.length + 2 * acc.length = ((acc.map frame).flatten).length := by
  induction acc with
  | nil => rfl
  | cons m acc ih => simp only [List.flatten_cons, List.length_append, List.length_cons, List.map_cons, frame]; omega

theorem flatten_length_le {acc : List Bytes} {k : Nat} (h : ∀ m ∈ acc, m.length ≤ k) : acc.flatten.length ≤ acc.length * k := by
  induction acc with
  | nil => simp
  | cons m acc ih =>
    have h1 := ih (fun x hx => h x (by simp [hx]))
    have h2 := h m (by simp)
    simp only [List.flatten_cons, List.length_append, List.length_cons, Nat.add_mul]
    omega

end Dnssec
