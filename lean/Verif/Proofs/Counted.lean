import Verif.Proofs.Ticks
import Verif.Spec.Ticks

/-! # The step counter leaves nothing out -/

namespace Dnssec

open Spec

/-- What the reader consumes is counted, and `e` more. -/
def Counts {α : Type} (m : Ticked (α × Bytes)) (inp : Bytes) (e : α → Nat) : Prop :=
  ∀ a rest, m.res = .ok (a, rest) → inp.length + e a ≤ m.ticks + rest.length

/-- The same for functions that use up their input. -/
def CountsAll {α : Type} (m : Ticked α) (inp : Bytes) (e : α → Nat) : Prop := ∀ a, m.res = .ok a → inp.length + e a ≤ m.ticks

theorem Ticked.bind_ok {α β : Type} {m : Ticked α} {f : α → Ticked β} {b : β} (h : (m >>= f).res = .ok b) :
    ∃ a, m.res = .ok a ∧ (f a).res = .ok b ∧ (m >>= f).ticks = m.ticks + (f a).ticks := by
  rw [Ticked.bind_res] at h
  rw [Ticked.bind_ticks]
  cases hm : m.res with
  | ok a => rw [hm] at h; exact ⟨a, rfl, h, rfl⟩
  | err e => rw [hm] at h; exact nomatch h
  | panic => rw [hm] at h; exact nomatch h

theorem Ticked.map_ok {α β : Type} {m : Ticked α} {f : α → β} {b : β} (h : (m.map f).res = .ok b) : ∃ a, m.res = .ok a ∧ b = f a := by
  rw [Ticked.map_res] at h
  cases hm : m.res with
  | ok a => rw [hm] at h; simp only [Res.map, Res.ok.injEq] at h; exact ⟨a, rfl, h.symm⟩
  | err e => rw [hm] at h; exact nomatch h
  | panic => rw [hm] at h; exact nomatch h

theorem Counts.bind {α β : Type} {m : Ticked (α × Bytes)} {f : α × Bytes → Ticked β} {inp : Bytes} {e : α → Nat} {b : β} {k l : Nat}
    (h : Counts m inp e) (hb : (m >>= f).res = .ok b)
    (hf : ∀ a rest, (f (a, rest)).res = .ok b → rest.length + k ≤ (f (a, rest)).ticks + (l + e a)) :
    inp.length + k ≤ (m >>= f).ticks + l := by
  obtain ⟨⟨a, rest⟩, h1, h2, h3⟩ := Ticked.bind_ok hb
  have := h a rest h1
  have := hf a rest h2
  omega

theorem readU8T_counts (inp : Bytes) : Counts (readU8T inp) inp (fun _ => 0) := by
  intro a rest h
  unfold readU8T readU8 at *
  match inp, h with
  | x :: r, h => simp_all; omega

theorem readU16T_counts (inp : Bytes) : Counts (readU16T inp) inp (fun _ => 0) := by
  intro a rest h
  unfold readU16T readU16 at *
  match inp, h with
  | x :: y :: r, h => simp_all; omega

theorem readU32T_counts (inp : Bytes) : Counts (readU32T inp) inp (fun _ => 0) := by
  intro a rest h
  unfold readU32T readU32 at *
  match inp, h with
  | x :: y :: z :: w :: r, h => simp_all; omega

theorem readU8LenPrefixedT_counts (inp : Bytes) : Counts (readU8LenPrefixedT inp) inp (fun _ => 0) := by
  intro a rest h
  unfold readU8LenPrefixedT at *
  match inp, h with
  | x :: r, h =>
    simp only at h ⊢
    by_cases hl : r.length < x.toNat
    · rw [if_pos hl] at h; exact nomatch h
    · rw [if_neg hl] at h ⊢
      simp only [Ticked.charge_res, Res.ok.injEq, Prod.mk.injEq] at h
      rw [← h.2]
      simp only [Ticked.charge_ticks, List.length_cons, List.length_drop]; omega

theorem readBitmapLoopT_counts : ∀ (fuel : Nat) (inp : Bytes) (res : FixedBytes 8192), inp.length ≤ fuel →
    CountsAll (readBitmapLoopT fuel inp res) inp (fun _ => 0) := by
  intro fuel
  induction fuel with
  | zero => intro inp res hl a h; simp only [readBitmapLoopT, Ticked.charge_ticks]; omega
  | succ fuel ih =>
    intro inp res hl a h
    unfold readBitmapLoopT at h ⊢
    match inp, h with
    | [], _ => simp
    | block :: len :: rest, h =>
      simp only at h ⊢
      by_cases h1 : rest.length < len.toNat
      · rw [if_pos h1] at h; exact nomatch h
      · rw [if_neg h1] at h ⊢
        by_cases h2 : block.toNat * 32 + (rest.take len.toNat).length ≤ 8192
        · rw [dif_pos h2] at h ⊢
          obtain ⟨_, _, h3, e⟩ := Ticked.bind_ok h
          rw [e]
          have hd := List.length_drop (l := rest) (i := len.toNat)
          have := ih _ _ (by simp only [List.length_cons] at hl; omega) a h3
          simp only [Ticked.charge_ticks, List.length_cons] at this ⊢
          omega
        · rw [dif_neg h2] at h; exact nomatch h

theorem readNsecTypesBitmapT_counts (inp : Bytes) : CountsAll (readNsecTypesBitmapT inp) inp (fun _ => 8192) := by
  intro a h
  unfold readNsecTypesBitmapT at h ⊢
  obtain ⟨_, _, h3, e⟩ := Ticked.bind_ok h
  rw [e]
  obtain ⟨b, h4, _⟩ := Ticked.map_ok h3
  have := readBitmapLoopT_counts _ _ _ (Nat.le_refl _) b h4
  simp only [Ticked.charge_ticks, Ticked.map_ticks]
  omega

theorem txtReadLoopT_counts : ∀ (fuel : Nat) (data acc : Bytes), data.length ≤ fuel →
    CountsAll (txtReadLoopT fuel data acc) data (fun _ => 0) := by
  intro fuel
  induction fuel with
  | zero => intro inp res hl a h; simp only [txtReadLoopT, Ticked.charge_ticks]; omega
  | succ fuel ih =>
    intro data acc hl a h
    unfold txtReadLoopT at h ⊢
    match data, h with
    | [], _ => simp
    | len :: rest, h =>
      simp only at h ⊢
      by_cases h1 : rest.length < len.toNat
      · rw [if_pos h1] at h; exact nomatch h
      · rw [if_neg h1] at h ⊢
        obtain ⟨_, _, h3, e⟩ := Ticked.bind_ok h
        rw [e]
        have hd := List.length_drop (l := rest) (i := len.toNat)
        have := ih _ _ (by simp only [List.length_cons] at hl; omega) a h3
        simp only [Ticked.charge_ticks, List.length_cons] at this ⊢
        omega

theorem readLabelsLoopT_counts (wire : Bytes) (jump : Option (Nat → Bytes → Ticked Bytes)) :
    ∀ (fuel : Nat) (inp name : Bytes), Counts (readLabelsLoopT wire jump fuel inp name) inp (fun _ => 0) := by
  intro fuel
  induction fuel with
  | zero => intro inp name a rest h; exact nomatch h
  | succ fuel ih =>
    intro inp name a rest h
    unfold readLabelsLoopT at h ⊢
    cases inp with
    | nil => exact nomatch h
    | cons lenb inp =>
      simp only at h ⊢
      by_cases h0 : lenb.toNat = 0
      · rw [if_pos h0] at h ⊢
        simp only [Ticked.charge_res, Res.ok.injEq, Prod.mk.injEq] at h
        simp [← h.2]; omega
      · rw [if_neg h0] at h ⊢
        have hlabel : ∀ t : Ticked (Bytes × Bytes), t = (if inp.length ≤ lenb.toNat then Ticked.charge 1 (Res.err ()) else
            if utf8Valid (List.take lenb.toNat inp) = true then
              if (name ++ List.take lenb.toNat inp ++ [dot]).length > 255 then Ticked.charge (1 + lenb.toNat) (Res.err ())
              else do
                Ticked.charge (1 + lenb.toNat) (Res.ok ())
                readLabelsLoopT wire jump fuel (List.drop lenb.toNat inp) (name ++ List.take lenb.toNat inp ++ [dot])
            else Ticked.charge (1 + lenb.toNat) (Res.err ())) → t.res = .ok (a, rest) →
            (lenb :: inp).length + 0 ≤ t.ticks + rest.length := by
          intro t ht hr
          by_cases h1 : inp.length ≤ lenb.toNat
          · rw [if_pos h1] at ht; rw [ht] at hr; exact nomatch hr
          · rw [if_neg h1] at ht
            by_cases h2 : utf8Valid (List.take lenb.toNat inp) = true
            · rw [if_pos h2] at ht
              by_cases h3 : (name ++ List.take lenb.toNat inp ++ [dot]).length > 255
              · rw [if_pos h3] at ht; rw [ht] at hr; exact nomatch hr
              · rw [if_neg h3] at ht
                subst ht
                obtain ⟨_, _, h4, e⟩ := Ticked.bind_ok hr
                have := ih _ _ a rest h4
                rw [e]
                simp only [Ticked.charge_ticks, List.length_cons, List.length_drop] at this ⊢
                omega
            · rw [if_neg h2] at ht; rw [ht] at hr; exact nomatch hr
        cases jump with
        | none => exact hlabel _ rfl h
        | some f =>
          simp only at h ⊢
          by_cases hc : 0xc0 ≤ lenb.toNat
          · rw [if_pos hc] at h ⊢
            cases inp with
            | nil => exact nomatch h
            | cons lo inp =>
              simp only at h ⊢
              split at h
              · exact nomatch h
              · rename_i ho
                rw [if_neg ho]
                obtain ⟨_, _, h4, e⟩ := Ticked.bind_ok h
                obtain ⟨b, _, h5⟩ := Ticked.map_ok h4
                simp only [Prod.mk.injEq] at h5
                rw [e, h5.2]
                simp only [Ticked.charge_ticks, List.length_cons]
                omega
          · rw [if_neg hc] at h ⊢
            exact hlabel _ rfl h

theorem readLabelsT_counts (wire : Bytes) : ∀ (limit : Nat) (inp name : Bytes), Counts (readLabelsT wire limit inp name) inp (fun _ => 0)
  | 0, _, _ => readLabelsLoopT_counts _ _ _ _ _
  | _ + 1, _, _ => readLabelsLoopT_counts _ _ _ _ _

theorem readNameT_counts (wire inp : Bytes) : Counts (readNameT wire inp) inp (fun n => n.bytes.length) := by
  intro n rest h
  unfold readNameT at h ⊢
  obtain ⟨⟨text, rest'⟩, h1, h2, e⟩ := Ticked.bind_ok h
  have := readLabelsT_counts _ _ _ _ _ _ h1
  rw [e]
  simp only [Ticked.charge_res] at h2
  split at h2
  · rename_i n' hn
    simp only [Res.ok.injEq, Prod.mk.injEq] at h2
    obtain ⟨rfl, rfl⟩ := h2
    have hl : n'.bytes.length = text.length := by
      rw [((tryFrom_iff _ _).mp hn).2]
      simp [lower]
    simp only [Ticked.charge_ticks]
    omega
  · exact nomatch h2

/-! ### Records -/

theorem readOneNameT_counts {wire data : Bytes} {mk : Name → RR} {rr : RR} (h : (readOneNameT true wire mk data).res = .ok rr) :
    ∃ n, rr = mk n ∧ data.length + n.bytes.length ≤ (readOneNameT true wire mk data).ticks := by
  unfold readOneNameT at h ⊢
  obtain ⟨⟨n, rest⟩, h1, h2, e⟩ := Ticked.bind_ok h
  obtain ⟨u, h3, h4, e2⟩ := Ticked.bind_ok h2
  rw [e, e2]
  have hr : rest = [] := by
    cases rest with
    | nil => rfl
    | cons => exact nomatch h3
  have := readNameT_counts _ _ _ _ h1
  subst hr
  simp only [Ticked.pure_res, Res.ok.injEq] at h4
  refine ⟨n, h4.symm, ?_⟩
  simp only [List.length_nil] at this
  omega

theorem ite_ok {α : Type} {c : Prop} [Decidable c] {a b : Ticked α} {x : α} {k l : Nat} (h : (if c then a else b).res = .ok x)
    (ha : c → a.res = .ok x → k ≤ a.ticks + l) (hb : ¬ c → b.res = .ok x → k ≤ b.ticks + l) : k ≤ (if c then a else b).ticks + l := by
  by_cases hc : c
  · rw [if_pos hc] at h ⊢; exact ha hc h
  · rw [if_neg hc] at h ⊢; exact hb hc h

theorem nsec_arith {a b c k t : Nat} (h : a + k ≤ t) : a + (b + (c + 0) + k) ≤ t + 0 + (b + c) := by omega

theorem nsec3_arith {a b k t : Nat} (h : a + k ≤ t) : a + (b + 0 + k) ≤ t + 0 + b := by omega

theorem readRDataT_counts {wire : Bytes} {ty : UInt16} {name : Name} {data : Bytes} {rr : RR}
    (h : (readRDataT true wire ty name data).res = .ok rr) :
    data.length + besides rr ≤ (readRDataT true wire ty name data).ticks + name.bytes.length := by
  unfold readRDataT at h ⊢
  refine ite_ok h (fun _ h => ?_) fun _ h => ite_ok h (fun _ h => ?_) fun _ h => ite_ok h (fun _ h => ?_) fun _ h =>
    ite_ok h (fun _ h => ?_) fun _ h => ite_ok h (fun _ h => ?_) fun _ h => ite_ok h (fun _ h => ?_) fun _ h =>
    ite_ok h (fun _ h => ?_) fun _ h => ite_ok h (fun _ h => ?_) fun _ h => ite_ok h (fun _ h => ?_) fun _ h =>
    ite_ok h (fun _ h => ?_) fun _ h => ite_ok h (fun _ h => ?_) fun _ h => ite_ok h (fun _ h => ?_) fun _ h => nomatch h
  · simp only [Ticked.charge_res] at h
    cases ha : A.read name data with
    | ok a =>
      rw [ha] at h
      simp only [Res.map, Res.ok.injEq] at h
      subst h
      have : a.name = name := by
        unfold A.read at ha
        split at ha
        · simp only [Res.ok.injEq] at ha; rw [← ha]
        · exact nomatch ha
      simp [besides, rdataNames, RR.name, this]
    | err e => rw [ha] at h; exact nomatch h
    | panic => rw [ha] at h; exact nomatch h
  · simp only [Ticked.charge_res] at h
    cases ha : AAAA.read name data with
    | ok a =>
      rw [ha] at h
      simp only [Res.map, Res.ok.injEq] at h
      subst h
      have : a.name = name := by
        unfold AAAA.read at ha
        split at ha
        · simp only [Res.ok.injEq] at ha; rw [← ha]
        · exact nomatch ha
      simp [besides, rdataNames, RR.name, this]
    | err e => rw [ha] at h; exact nomatch h
    | panic => rw [ha] at h; exact nomatch h
  · obtain ⟨n, rfl, hn⟩ := readOneNameT_counts h
    simp only [besides, rdataNames, RR.name, List.map_cons, List.map_nil, List.sum_cons, List.sum_nil]
    omega
  · obtain ⟨d, h1, rfl⟩ := Ticked.map_ok h
    have := txtReadLoopT_counts _ _ _ (Nat.le_refl _) d h1
    simp only [besides, rdataNames, RR.name, List.map_nil, List.sum_nil, Ticked.map_ticks]
    omega
  · obtain ⟨n, rfl, hn⟩ := readOneNameT_counts h
    simp only [besides, rdataNames, RR.name, List.map_cons, List.map_nil, List.sum_cons, List.sum_nil]
    omega
  · obtain ⟨n, rfl, hn⟩ := readOneNameT_counts h
    simp only [besides, rdataNames, RR.name, List.map_cons, List.map_nil, List.sum_cons, List.sum_nil]
    omega
  · obtain ⟨d, h1, rfl⟩ := Ticked.map_ok h
    simp only [Ticked.map_ticks]
    unfold TLSA.readT at h1 ⊢
    refine (readU8T_counts _).bind h1 fun _ _ h1 => (readU8T_counts _).bind h1 fun _ _ h1 => (readU8T_counts _).bind h1 fun _ _ h1 => ?_
    simp only [Ticked.charge_res, Res.ok.injEq] at h1
    subst h1
    simp [besides, rdataNames, RR.name]
  · obtain ⟨d, h1, rfl⟩ := Ticked.map_ok h
    simp only [Ticked.map_ticks]
    unfold DnsKey.readT at h1 ⊢
    refine (readU16T_counts _).bind h1 fun _ _ h1 => (readU8T_counts _).bind h1 fun _ _ h1 => (readU8T_counts _).bind h1 fun _ _ h1 => ?_
    simp only [Ticked.charge_res, Res.ok.injEq] at h1
    subst h1
    simp [besides, rdataNames, RR.name]
  · obtain ⟨d, h1, rfl⟩ := Ticked.map_ok h
    simp only [Ticked.map_ticks]
    unfold DS.readT at h1 ⊢
    refine (readU16T_counts _).bind h1 fun _ _ h1 => (readU8T_counts _).bind h1 fun _ _ h1 => (readU8T_counts _).bind h1 fun _ _ h1 => ?_
    simp only [Ticked.charge_res, Res.ok.injEq] at h1
    subst h1
    simp [besides, rdataNames, RR.name]
  · obtain ⟨d, h1, rfl⟩ := Ticked.map_ok h
    simp only [Ticked.map_ticks]
    unfold RRSig.readT at h1 ⊢
    refine (readU16T_counts _).bind h1 fun _ _ h1 => (readU8T_counts _).bind h1 fun _ _ h1 => (readU8T_counts _).bind h1 fun _ _ h1 =>
      (readU32T_counts _).bind h1 fun _ _ h1 => (readU32T_counts _).bind h1 fun _ _ h1 => (readU32T_counts _).bind h1 fun _ _ h1 =>
      (readU16T_counts _).bind h1 fun _ _ h1 => (readNameT_counts _ _).bind h1 fun _ _ h1 => ?_
    simp only [Ticked.charge_res, Res.ok.injEq] at h1
    subst h1
    simp [besides, rdataNames, RR.name]
  · obtain ⟨d, h1, rfl⟩ := Ticked.map_ok h
    simp only [Ticked.map_ticks]
    unfold NSec.readT at h1 ⊢
    refine (readNameT_counts _ _).bind h1 fun _ _ h1 => ?_
    obtain ⟨t, h2, h3, e⟩ := Ticked.bind_ok h1
    have := readNsecTypesBitmapT_counts _ _ h2
    simp only at this
    rw [e]
    clear e
    generalize (readNsecTypesBitmapT _).ticks = t at this ⊢
    simp only [Ticked.pure_res, Res.ok.injEq] at h3
    subst h3
    simp only [besides, rdataNames, RR.name, List.map_cons, List.map_nil, List.sum_cons, List.sum_nil, Ticked.pure_ticks, Nat.reduceDiv]
    exact nsec_arith this
  · obtain ⟨d, h1, rfl⟩ := Ticked.map_ok h
    simp only [Ticked.map_ticks]
    unfold NSec3.readT at h1 ⊢
    refine (readU8T_counts _).bind h1 fun _ _ h1 => (readU8T_counts _).bind h1 fun _ _ h1 => (readU16T_counts _).bind h1 fun _ _ h1 =>
      (readU8LenPrefixedT_counts _).bind h1 fun _ _ h1 => (readU8LenPrefixedT_counts _).bind h1 fun _ _ h1 => ?_
    obtain ⟨t, h2, h3, e⟩ := Ticked.bind_ok h1
    have := readNsecTypesBitmapT_counts _ _ h2
    simp only at this
    rw [e]
    clear e
    generalize (readNsecTypesBitmapT _).ticks = t at this ⊢
    simp only [Ticked.pure_res, Res.ok.injEq] at h3
    subst h3
    simp only [besides, rdataNames, RR.name, List.map_nil, List.sum_nil, Ticked.pure_ticks, Nat.reduceDiv]
    exact nsec3_arith this

theorem parseWirePacketRRT_counts (wire inp : Bytes) : Counts (parseWirePacketRRT true wire inp) inp (fun x => besides x.1) := by
  intro x rest h
  unfold parseWirePacketRRT at h ⊢
  refine (readNameT_counts _ _).bind h fun name _ h => (readU16T_counts _).bind h fun ty _ h => (readU16T_counts _).bind h fun cls _ h =>
    ite_ok h (fun _ h => nomatch h) fun _ h => (readU32T_counts _).bind h fun ttl _ h => (readU16T_counts _).bind h fun dl r h =>
    ite_ok h (fun _ h => nomatch h) fun hl h => ?_
  obtain ⟨rr, h1, h2, e⟩ := Ticked.bind_ok h
  rw [e]
  have := readRDataT_counts h1
  simp only [Ticked.pure_res, Res.ok.injEq, Prod.mk.injEq] at h2
  obtain ⟨rfl, rfl⟩ := h2
  simp only [Ticked.pure_ticks, List.length_take, List.length_drop] at this ⊢
  omega

theorem parseRRStreamLoopT_counts : ∀ (fuel : Nat) (inp : Bytes) (acc rrs : List RR), inp.length ≤ fuel →
    (parseRRStreamLoopT true fuel inp acc).res = .ok rrs →
    inp.length + (rrs.map besides).sum ≤ (parseRRStreamLoopT true fuel inp acc).ticks + (acc.map besides).sum := by
  intro fuel
  induction fuel with
  | zero =>
    intro inp acc rrs hl h
    simp only [parseRRStreamLoopT, Ticked.charge_res, Res.ok.injEq] at h
    subst h
    omega
  | succ fuel ih =>
    intro inp acc rrs hl h
    unfold parseRRStreamLoopT at h ⊢
    refine ite_ok h (fun he h => ?_) (fun he h => ?_)
    · simp only [Ticked.charge_res, Res.ok.injEq] at h
      subst h
      cases inp with
      | nil => simp
      | cons => exact nomatch he
    · obtain ⟨⟨rr, rest⟩, h1, h2, e⟩ := Ticked.bind_ok h
      rw [e]
      simp only at h2 ⊢
      obtain ⟨⟨⟨rr', ttl⟩, rest'⟩, h3, h4⟩ := Ticked.map_ok h1
      simp only [Prod.mk.injEq] at h4
      obtain ⟨rfl, rfl⟩ := h4
      have hc := parseWirePacketRRT_counts _ _ _ _ h3
      simp only at hc
      rw [parseWirePacketRRT_res] at h3
      have := parse_consumes h3
      have hi := ih rest (acc ++ [rr]) rrs (by omega) h2
      have ht : (parseRRT true inp).ticks = (parseWirePacketRRT true [] inp).ticks := rfl
      rw [ht]
      simp only [List.map_append, List.map_cons, List.map_nil, List.sum_append, List.sum_cons, List.sum_nil] at hi
      omega

theorem parseRRStreamT_counts {inp : Bytes} {rrs : List RR} (h : parseRRStream true inp = .ok rrs) :
    inp.length + (rrs.map besides).sum ≤ (parseRRStreamT true inp).ticks := by
  rw [← parseRRStreamT_res] at h
  have := parseRRStreamLoopT_counts _ _ _ _ (Nat.le_refl _) h
  exact this

/-! ### Responses -/

theorem readU16T_step {β : Type} {a : UInt16} {r : Bytes} {f : UInt16 × Bytes → Ticked β} {b : β} {k l : Nat}
    (h : (readU16T (be16 a ++ r) >>= f).res = .ok b) (hf : (f (a, r)).res = .ok b → r.length + k ≤ (f (a, r)).ticks + l) :
    (be16 a ++ r).length + k ≤ (readU16T (be16 a ++ r) >>= f).ticks + l := by
  have hr : (readU16T (be16 a ++ r)).res = .ok (a, r) := by rw [readU16T_res]; exact readU16_be16 a r
  rw [Ticked.bind_res, hr] at h
  rw [Ticked.bind_ticks, hr]
  have := hf h
  have ht : (readU16T (be16 a ++ r)).ticks = 2 := rfl
  simp only [List.length_append, be16_length]
  omega

theorem readHeaderT_counts {resp : Bytes} {an ns : UInt16} {body : Bytes} (h : (readHeaderT resp).res = .ok ((an, ns), body)) :
    ∃ flags ar qname qtype qclass, IsMessage resp 0 flags 1 an ns ar qname qtype qclass body ∧
      resp.length + qname.bytes.length ≤ (readHeaderT resp).ticks + body.length := by
  have h' := h
  rw [readHeaderT_res, readHeader_iff] at h'
  obtain ⟨flags, ar, qname, qtype, qclass, hm, _⟩ := h'
  refine ⟨flags, ar, qname, qtype, qclass, hm, ?_⟩
  obtain ⟨ah, rfl, hq⟩ := hm
  have hq := readName_reads.mpr hq
  unfold readHeaderT at h ⊢
  refine readU16T_step h fun h => ite_ok h (fun _ h => nomatch h) fun _ h => readU16T_step h fun h =>
    ite_ok h (fun _ h => nomatch h) fun _ h => ite_ok h (fun _ h => nomatch h) fun _ h => ite_ok h (fun _ h => nomatch h) fun _ h =>
    readU16T_step h fun h => ite_ok h (fun _ h => nomatch h) fun _ h => readU16T_step h fun h =>
    ite_ok h (fun _ h => nomatch h) fun _ h => readU16T_step h fun h => readU16T_step h fun h => ?_
  obtain ⟨⟨q, r⟩, h1, h2, e⟩ := Ticked.bind_ok h
  have hc := readNameT_counts _ _ _ _ h1
  rw [e]
  rw [readNameT_res, hq] at h1
  simp only [Res.ok.injEq, Prod.mk.injEq] at h1
  obtain ⟨rfl, rfl⟩ := h1
  have := readU16T_step (k := 0) (l := body.length) h2 fun h2 => readU16T_step h2 fun _ => by simp
  simp only at this hc ⊢
  omega

theorem answersLoopT_counts (resp : Bytes) : ∀ (n : Nat) (st st' : HState), answersLoop true resp n st = (st', .ok ()) →
    ∃ recs, Records true resp n st.read recs st'.read ∧ st.read.length + (recs.map fun r => besides r.1).sum + (encode recs).length ≤
      (answersLoopT true resp n st).2 + st'.read.length := by
  intro n
  induction n with
  | zero => intro st st' h; cases h; exact ⟨[], .nil _, by simp [encode]⟩
  | succ n ih =>
    intro st st' h
    unfold answersLoop at h
    unfold answersLoopT
    simp only [parseWirePacketRRT_res]
    have hc := parseWirePacketRRT_counts resp st.read
    unfold Counts at hc
    rw [parseWirePacketRRT_res] at hc
    cases hp : parseWirePacketRR true resp st.read with
    | ok x =>
      obtain ⟨⟨rr, ttl⟩, mid⟩ := x
      rw [hp] at h
      obtain ⟨recs, i1, i2⟩ := ih _ _ h
      have := hc _ _ hp
      refine ⟨(rr, ttl) :: recs, .cons ((parseWirePacketRR_iff).mp hp) i1, ?_⟩
      simp only [encode, List.map_cons, List.sum_cons, List.flatten_cons, List.length_append] at i2 ⊢
      have e : (HState.add { st with read := mid } rr ttl).read = mid := rfl
      rw [e] at i2
      simp only at this
      omega
    | err e => rw [hp] at h; exact nomatch h
    | panic => rw [hp] at h; exact nomatch h

theorem authoritiesLoopT_counts (resp : Bytes) : ∀ (n : Nat) (st st' : HState), authoritiesLoop true resp n st = (st', .ok ()) →
    ∃ recs, Records true resp n st.read recs st'.read ∧
      st.read.length + (recs.map fun r => besides r.1).sum + (encode (recs.filter fun r => denialRecord r.1)).length ≤
      (authoritiesLoopT true resp n st).2 + st'.read.length := by
  intro n
  induction n with
  | zero => intro st st' h; cases h; exact ⟨[], .nil _, by simp [encode]⟩
  | succ n ih =>
    intro st st' h
    unfold authoritiesLoop at h
    unfold authoritiesLoopT
    simp only [parseWirePacketRRT_res]
    have hc := parseWirePacketRRT_counts resp st.read
    unfold Counts at hc
    rw [parseWirePacketRRT_res] at hc
    cases hp : parseWirePacketRR true resp st.read with
    | ok x =>
      obtain ⟨⟨rr, ttl⟩, mid⟩ := x
      rw [hp] at h
      have := hc _ _ hp
      simp only at this h ⊢
      by_cases hk : keepAuthority rr = true
      · rw [if_pos hk] at h ⊢
        obtain ⟨recs, i1, i2⟩ := ih _ _ h
        refine ⟨(rr, ttl) :: recs, .cons ((parseWirePacketRR_iff).mp hp) i1, ?_⟩
        have hd : denialRecord rr = true := by rw [← keepAuthority_eq]; exact hk
        rw [List.filter_cons_of_pos (by exact hd)]
        simp only [encode, List.map_cons, List.sum_cons, List.flatten_cons, List.length_append] at i2 ⊢
        have e : (HState.add { st with read := mid } rr ttl).read = mid := rfl
        rw [e] at i2
        omega
      · rw [if_neg hk] at h ⊢
        obtain ⟨recs, i1, i2⟩ := ih _ _ h
        refine ⟨(rr, ttl) :: recs, .cons ((parseWirePacketRR_iff).mp hp) i1, ?_⟩
        have hd : ¬ denialRecord rr = true := by rw [← keepAuthority_eq]; exact hk
        rw [List.filter_cons_of_neg (by exact hd)]
        simp only [List.map_cons, List.sum_cons] at i2 ⊢
        omega
    | err e => rw [hp] at h; exact nomatch h
    | panic => rw [hp] at h; exact nomatch h

theorem handleResponseT_counts {resp proof : Bytes} {names : List Name} {x : Bytes × List Name} {ttl : UInt32}
    (h : handleResponse true resp proof names = (x, .ok ttl)) :
    ∃ flags an ns ar qname qtype qclass body mid rest ans auth, IsMessage resp 0 flags 1 an ns ar qname qtype qclass body ∧
      Records true resp an.toNat body ans mid ∧ Records true resp ns.toNat mid auth rest ∧
      resp.length + qname.bytes.length + ((ans ++ auth).map fun r => besides r.1).sum +
        (encode (ans ++ auth.filter fun r => denialRecord r.1)).length ≤ (handleResponseT true resp proof names).2 + rest.length := by
  unfold handleResponse at h
  unfold handleResponseT
  simp only [readHeaderT_res]
  cases hr : readHeader resp with
  | err e => rw [hr] at h; exact nomatch h
  | panic => rw [hr] at h; exact nomatch h
  | ok y =>
    obtain ⟨⟨an, ns⟩, body⟩ := y
    obtain ⟨flags, ar, qname, qtype, qclass, hm, h0⟩ := readHeaderT_counts (by rw [readHeaderT_res]; exact hr)
    rw [hr] at h
    simp only [answersLoopT_res, authoritiesLoopT_res] at h ⊢
    cases ha : answersLoop true resp an.toNat ⟨body, proof, names, 0xffffffff⟩ with
    | mk st r =>
      rw [ha] at h
      cases r with
      | err e => exact nomatch h
      | panic => exact nomatch h
      | ok u =>
        obtain ⟨ans, a1, a2⟩ := answersLoopT_counts _ _ _ _ ha
        simp only at h a1 a2 ⊢
        cases hau : authoritiesLoop true resp ns.toNat st with
        | mk st' r' =>
          rw [hau] at h
          cases r' with
          | err e => exact nomatch h
          | panic => exact nomatch h
          | ok u =>
            obtain ⟨auth, b1, b2⟩ := authoritiesLoopT_counts _ _ _ _ hau
            refine ⟨flags, an, ns, ar, qname, qtype, qclass, body, st.read, st'.read, ans, auth, hm, a1, b1, ?_⟩
            simp only [encode, List.map_append, List.sum_append, List.flatten_append, List.length_append] at a2 b2 ⊢
            omega

end Dnssec
