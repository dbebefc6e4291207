import Verif.Spec.DebugQuery
import Verif.Model.DebugQuery
import Verif.Proofs.Debug
import Verif.Proofs.Server

/-! # Building proofs in debug builds -/

namespace Dnssec

open Spec

variable {resp : Bytes}

/-! ### Debug assertions of the parser -/

/-- `a` is `b`, or a panic. -/
def PanicsOr {ε α : Type} (a b : Res ε α) : Prop := a = .panic ∨ a = b

theorem PanicsOr.same {ε α : Type} {a : Res ε α} : PanicsOr a a := Or.inr rfl

theorem PanicsOr.bind {α β : Type} {x : Res Unit α} {f g : α → Res Unit β} (h : ∀ v, PanicsOr (f v) (g v)) :
    PanicsOr (x >>= f) (x >>= g) := by
  cases x with
  | ok v => exact h v
  | err e => exact .same
  | panic => exact .same

theorem PanicsOr.bind_left {α β : Type} {x y : Res Unit α} {f : α → Res Unit β} (h : PanicsOr x y) :
    PanicsOr (x >>= f) (y >>= f) := by
  rcases h with rfl | rfl
  · exact Or.inl rfl
  · exact .same

theorem PanicsOr.map {α β : Type} {x y : Res Unit α} {f : α → β} (h : PanicsOr x y) : PanicsOr (x.map f) (y.map f) := by
  rcases h with rfl | rfl
  · exact Or.inl rfl
  · exact .same

theorem debugAssert_le (c : Bool) : PanicsOr (debugAssert true c) (debugAssert false c) := by
  cases c
  · exact Or.inl rfl
  · exact .same

theorem PanicsOr.ite {ε α : Type} {c : Prop} [Decidable c] {a a' b b' : Res ε α} (h1 : PanicsOr a a') (h2 : PanicsOr b b') :
    PanicsOr (if c then a else b) (if c then a' else b') := by
  by_cases hc : c
  · rw [if_pos hc, if_pos hc]; exact h1
  · rw [if_neg hc, if_neg hc]; exact h2

theorem readRData_debug {ty : UInt16} {name : Name} {data : Bytes} :
    PanicsOr (readRData true resp ty name data) (readRData false resp ty name data) := by
  unfold readRData
  refine PanicsOr.ite .same (PanicsOr.ite .same (PanicsOr.ite (.map (.bind fun v => .bind_left (debugAssert_le _))) (PanicsOr.ite .same
    (PanicsOr.ite (.map (.bind fun v => .bind_left (debugAssert_le _))) (PanicsOr.ite (.map (.bind fun v => .bind_left (debugAssert_le _))) .same)))))

theorem parse_debug' {inp : Bytes} : PanicsOr (parseWirePacketRR true resp inp) (parseWirePacketRR false resp inp) := by
  unfold parseWirePacketRR
  refine .bind fun v => .bind fun v => .bind fun v => PanicsOr.ite .same (.bind fun v => .bind fun v => PanicsOr.ite .same (.bind_left readRData_debug))

theorem parse_debug {inp : Bytes} (h : parseWirePacketRR true resp inp ≠ .panic) :
    parseWirePacketRR true resp inp = parseWirePacketRR false resp inp := parse_debug'.resolve_left h

theorem answersLoop_debug {n : Nat} : ∀ {st : HState}, (answersLoop true resp n st).2 ≠ .panic →
    answersLoop true resp n st = answersLoop false resp n st := by
  induction n with
  | zero => intro st _; rfl
  | succ n ih =>
    intro st h
    rw [answersLoop] at h ⊢
    rw [answersLoop]
    rcases parse_debug' (resp := resp) (inp := st.read) with e | e
    · rw [e] at h; exact absurd rfl h
    · rw [e] at h ⊢
      cases hp : parseWirePacketRR false resp st.read with
      | ok x => rw [hp] at h; exact ih h
      | err e => rfl
      | panic => rfl

theorem authoritiesLoop_debug {n : Nat} : ∀ {st : HState}, (authoritiesLoop true resp n st).2 ≠ .panic →
    authoritiesLoop true resp n st = authoritiesLoop false resp n st := by
  induction n with
  | zero => intro st _; rfl
  | succ n ih =>
    intro st h
    rw [authoritiesLoop] at h ⊢
    rw [authoritiesLoop]
    rcases parse_debug' (resp := resp) (inp := st.read) with e | e
    · rw [e] at h; exact absurd rfl h
    · rw [e] at h ⊢
      cases hp : parseWirePacketRR false resp st.read with
      | ok x =>
        rw [hp] at h
        obtain ⟨⟨rr, ttl⟩, rd⟩ := x
        simp only at h ⊢
        by_cases hk : keepAuthority rr = true
        · rw [if_pos hk] at h ⊢; rw [if_pos hk]; exact ih h
        · rw [if_neg hk] at h ⊢; rw [if_neg hk]; exact ih h
      | err e => rfl
      | panic => rfl

theorem handleResponse_debug {proof : Bytes} {names : List Name} (h : (handleResponse true resp proof names).2 ≠ .panic) :
    handleResponse true resp proof names = handleResponse false resp proof names := by
  unfold handleResponse at h ⊢
  cases hh : readHeader resp with
  | panic => rfl
  | err e => rfl
  | ok x =>
    obtain ⟨⟨an, ns⟩, body⟩ := x
    rw [hh] at h
    simp only at h ⊢
    have ha := answersLoop_debug (resp := resp) (n := an.toNat) (st := ⟨body, proof, names, 0xffffffff⟩)
    cases hans : answersLoop true resp an.toNat ⟨body, proof, names, 0xffffffff⟩ with
    | mk st r =>
      rw [hans] at h ha
      cases r with
      | panic => simp at h
      | err e => rw [← ha (by simp)]
      | ok u =>
        rw [← ha (by simp)]
        simp only at h ⊢
        have hb := authoritiesLoop_debug (resp := resp) (n := ns.toNat) (st := st)
        cases hauth : authoritiesLoop true resp ns.toNat st with
        | mk st' r' =>
          rw [hauth] at h hb
          cases r' with
          | panic => simp at h
          | err e => rw [← hb (by simp)]
          | ok u => rw [← hb (by simp)]

/-! ### Records too long to be written -/

theorem wire_sized {dbg : Bool} {inp : Bytes} {rr : RR} {ttl : UInt32} {rest : Bytes}
    (h : parseWirePacketRR dbg resp inp = .ok ((rr, ttl), rest)) :
    (rdata rr).length ≤ 65535 ∨ ∃ s, rr = .rrsig s ∧ s.signature.length ≤ 65516 ∧ s.signature.length + 19 ≤ inp.length ∧
      (writeName s.keyName.bytes).length ≤ 256 := by
  obtain ⟨name, ty, data, r1, h1, hr1, h3, h4⟩ := parseWirePacketRR_ok h
  obtain ⟨p1, p2, p3, p4, p5⟩ := readRData_props h4
  rcases p5 with ⟨r, d, rfl, e1, e2⟩ | ⟨n, rst, e1, e2, e3⟩ | ⟨r, pre, tl, rfl, e1, e2, e3⟩ | ⟨r, rfl⟩ | ⟨r, rfl⟩ | e
  · left
    by_cases hd : r.data = []
    · obtain ⟨rn, rd⟩ := r
      simp only at hd
      subst hd
      rw [rdata_txt_nil]; simp
    · rw [rdata_txt_nonempty r hd, e2]
      rw [txtReadLoop_iff _ _ _ _ (Nat.le_refl _)] at e1
      obtain ⟨ss, f1, f2, f3⟩ := e1
      have := txtV_length_le f2
      rw [List.nil_append] at f3
      rw [f3]; rw [f1] at h3; omega
  · left
    have h1 := (p3 n e2).nameText.1.short
    have h2 := writeName_length_le n.bytes
    rw [e3]; omega
  · right
    have h5 := (p3 r.keyName (by simp [rdataNames])).nameText.1.short
    have h6 := writeName_length_le r.keyName.bytes
    have h7 : r.signature.length + 1 ≤ tl.length := by
      rw [readName_iff] at e3
      obtain ⟨t, f1, _⟩ := e3
      cases f1 with
      | stop => simp
      | label k len l inp text rest _ _ _ hd =>
        obtain ⟨q, e⟩ := Decodes_suffix hd
        rw [e]; simp; omega
      | pointer => simp
    obtain ⟨q, e⟩ := readName_suffix h1
    have hd : data.length = 18 + tl.length := by rw [e1, List.length_append, e2]
    have hi : data.length ≤ inp.length := by rw [e, hr1]; simp; omega
    exact ⟨r, rfl, by omega, by omega, by omega⟩
  · left
    have h1 := (p3 r.nextName (by simp [rdataNames])).nameText.1.short
    have h2 := writeName_length_le r.nextName.bytes
    have := writeNsecTypesBitmap_length_le r.types
    rw [rdata_nsec, List.length_append]; omega
  · left
    have := writeNsecTypesBitmap_length_le r.types
    obtain ⟨q1, q2⟩ := p4 r rfl
    rw [rdata_nsec3]
    simp only [List.length_append, List.length_cons, be16_length]
    omega
  · left; omega

theorem writeRRD_none {s : RRSig} (h : 65535 < (rdata (.rrsig s)).length) (h1 : s.signature.length ≤ 65516)
    (h2 : (writeName s.keyName.bytes).length ≤ 256) (ttl : UInt32) : writeRRD (.rrsig s) ttl = none := by
  rw [rdata_rrsig] at h
  simp only [List.length_append, List.length_cons, be16_length, be32_length] at h
  have e1 : (nameLen s.keyName).toNat = (writeName s.keyName.bytes).length := by rw [nameLen_eq]; simp; omega
  have e2 : (UInt16.ofNat s.signature.length).toNat = s.signature.length := by simp; omega
  have e0 : (2 + 1 + 1 + 4*3 + 2 : UInt16).toNat = 18 := by decide
  have e3 : ((2 + 1 + 1 + 4*3 + 2 : UInt16) + nameLen s.keyName).toNat = 18 + (writeName s.keyName.bytes).length := by
    rw [UInt16.toNat_add, e0, e1]; omega
  simp only [writeRRD, RR.writeDataD, RRSig.writeDataD]
  rw [addU16_ok (by rw [e0, e1]; omega)]
  simp only []
  have : addU16 ((2 + 1 + 1 + 4*3 + 2 : UInt16) + nameLen s.keyName) (UInt16.ofNat s.signature.length) = none := by
    unfold addU16
    rw [if_neg]
    rw [e3, e2]; omega
  rw [this]; rfl

theorem HState.addD_ok {st : HState} {rr : RR} {ttl : UInt32} (h : (rdata rr).length ≤ 65535) : st.addD rr ttl = some (st.add rr ttl) := by
  rw [HState.addD, writeRRD_ok h]; rfl

/-- Among the first `n` records at `inp` is one, after records that can be read, that is kept and too long. -/
def OversizeIn (resp : Bytes) (keep : RRSig → Prop) (n : Nat) (inp : Bytes) : Prop :=
  ∃ recs s ttl at_, Records true resp (recs.length + 1) inp (recs ++ [(RR.rrsig s, ttl)]) at_ ∧ recs.length < n ∧ keep s ∧
    65535 < (rdata (.rrsig s)).length

theorem oversizeIn_succ {keep : RRSig → Prop} {n : Nat} {inp : Bytes} {rr : RR} {ttl : UInt32} {mid : Bytes}
    (h : parseWirePacketRR true resp inp = .ok ((rr, ttl), mid)) :
    OversizeIn resp keep (n + 1) inp ↔
      (∃ s, rr = .rrsig s ∧ keep s ∧ 65535 < (rdata (.rrsig s)).length) ∨ OversizeIn resp keep n mid := by
  constructor
  · rintro ⟨recs, s, t, at_, hr, hl, hk, hb⟩
    cases recs with
    | nil =>
      cases hr with
      | cons g _ =>
        have := parseWirePacketRR_iff.mpr g
        rw [h] at this
        simp only [Res.ok.injEq, Prod.mk.injEq] at this
        exact Or.inl ⟨s, this.1.1, hk, hb⟩
    | cons x recs =>
      cases hr with
      | cons g hr =>
        have := parseWirePacketRR_iff.mpr g
        rw [h] at this
        simp only [Res.ok.injEq, Prod.mk.injEq] at this
        obtain ⟨_, rfl⟩ := this
        exact Or.inr ⟨recs, s, t, at_, hr, by simpa using hl, hk, hb⟩
  · rintro (⟨s, rfl, hk, hb⟩ | ⟨recs, s, t, at_, hr, hl, hk, hb⟩)
    · exact ⟨[], s, ttl, mid, .cons (parseWirePacketRR_iff.mp h) (.nil _), by simp, hk, hb⟩
    · exact ⟨(rr, ttl) :: recs, s, t, at_, .cons (parseWirePacketRR_iff.mp h) hr, by simpa using hl, hk, hb⟩

theorem oversizeIn_readable {keep : RRSig → Prop} {n : Nat} {inp : Bytes} (h : OversizeIn resp keep n inp) :
    ∃ m x, n = m + 1 ∧ parseWirePacketRR true resp inp = .ok x := by
  obtain ⟨recs, s, t, at_, hr, hl, _, _⟩ := h
  obtain ⟨m, rfl⟩ : ∃ m, n = m + 1 := ⟨n - 1, by omega⟩
  refine ⟨m, ?_⟩
  generalize recs ++ [(RR.rrsig s, t)] = l at hr
  cases hr with
  | cons g _ => exact ⟨_, rfl, parseWirePacketRR_iff.mpr g⟩

theorem answersLoopD_eq {n : Nat} : ∀ {st : HState},
    (OversizeIn resp (fun _ => True) n st.read → (answersLoopD resp n st).2 = .panic) ∧
    (¬ OversizeIn resp (fun _ => True) n st.read → answersLoopD resp n st = answersLoop true resp n st) := by
  induction n with
  | zero =>
    intro st
    refine ⟨fun h => ?_, fun _ => rfl⟩
    obtain ⟨m, _, e, _⟩ := oversizeIn_readable h
    exact absurd e (by simp)
  | succ n ih =>
    intro st
    rw [answersLoopD, answersLoop]
    cases hp : parseWirePacketRR true resp st.read with
    | err e =>
      refine ⟨fun h => ?_, fun _ => rfl⟩
      obtain ⟨_, _, _, e⟩ := oversizeIn_readable h
      rw [hp] at e; exact nomatch e
    | panic => exact ⟨fun _ => rfl, fun _ => rfl⟩
    | ok x =>
      obtain ⟨⟨rr, ttl⟩, rd⟩ := x
      rw [oversizeIn_succ hp]
      by_cases hs : (rdata rr).length ≤ 65535
      · simp only [HState.addD_ok hs]
        have hno : ¬ ∃ s, rr = .rrsig s ∧ True ∧ 65535 < (rdata (.rrsig s)).length := by
          rintro ⟨s, rfl, _, h⟩; omega
        simp only [hno, false_or]
        exact ih (st := { st with read := rd }.add rr ttl)
      · rcases wire_sized hp with h | ⟨s, rfl, h1, _, h2⟩
        · exact absurd h hs
        · have hl : 65535 < (rdata (.rrsig s)).length := by omega
          refine ⟨fun _ => ?_, fun h => absurd (Or.inl ⟨s, rfl, trivial, hl⟩) h⟩
          simp only [HState.addD, writeRRD_none hl h1 h2, Option.map_none]

theorem authoritiesLoopD_eq {n : Nat} : ∀ {st : HState},
    (OversizeIn resp (fun s => s.ty.toNat = 47 ∨ s.ty.toNat = 50) n st.read → (authoritiesLoopD resp n st).2 = .panic) ∧
    (¬ OversizeIn resp (fun s => s.ty.toNat = 47 ∨ s.ty.toNat = 50) n st.read →
      authoritiesLoopD resp n st = authoritiesLoop true resp n st) := by
  induction n with
  | zero =>
    intro st
    refine ⟨fun h => ?_, fun _ => rfl⟩
    obtain ⟨m, _, e, _⟩ := oversizeIn_readable h
    exact absurd e (by simp)
  | succ n ih =>
    intro st
    rw [authoritiesLoopD, authoritiesLoop]
    cases hp : parseWirePacketRR true resp st.read with
    | err e =>
      refine ⟨fun h => ?_, fun _ => rfl⟩
      obtain ⟨_, _, _, e⟩ := oversizeIn_readable h
      rw [hp] at e; exact nomatch e
    | panic => exact ⟨fun _ => rfl, fun _ => rfl⟩
    | ok x =>
      obtain ⟨⟨rr, ttl⟩, rd⟩ := x
      rw [oversizeIn_succ hp]
      simp only
      by_cases hk : keepAuthority rr = true
      · rw [if_pos hk, if_pos hk]
        by_cases hs : (rdata rr).length ≤ 65535
        · simp only [HState.addD_ok hs]
          have hno : ¬ ∃ s, rr = .rrsig s ∧ (s.ty.toNat = 47 ∨ s.ty.toNat = 50) ∧ 65535 < (rdata (.rrsig s)).length := by
            rintro ⟨s, rfl, _, h⟩; omega
          simp only [hno, false_or]
          exact ih (st := { st with read := rd }.add rr ttl)
        · rcases wire_sized hp with h | ⟨s, rfl, h1, _, h2⟩
          · exact absurd h hs
          · have hl : 65535 < (rdata (.rrsig s)).length := by omega
            rw [keepAuthority_eq] at hk
            simp only [denialRecord, Bool.or_eq_true, decide_eq_true_eq] at hk
            refine ⟨fun _ => ?_, fun h => absurd (Or.inl ⟨s, rfl, hk, hl⟩) h⟩
            simp only [HState.addD, writeRRD_none hl h1 h2, Option.map_none]
      · rw [if_neg hk, if_neg hk]
        have hno : ¬ ∃ s, rr = .rrsig s ∧ (s.ty.toNat = 47 ∨ s.ty.toNat = 50) ∧ 65535 < (rdata (.rrsig s)).length := by
          rintro ⟨s, rfl, h, _⟩
          rw [keepAuthority_eq] at hk
          simp only [denialRecord, Bool.or_eq_true, decide_eq_true_eq] at hk
          exact hk h
        simp only [hno, false_or]
        exact ih (st := { st with read := rd })

/-! ### `handle_response` and `process_response` -/

theorem messageOversize_iff {an ns : UInt16} {body : Bytes} (hh : readHeader resp = .ok ((an, ns), body)) :
    MessageOversize resp ↔ ∃ recs s ttl at_, Records true resp (recs.length + 1) body (recs ++ [(.rrsig s, ttl)]) at_ ∧
      (recs.length < an.toNat ∨ recs.length < an.toNat + ns.toNat ∧ (s.ty.toNat = 47 ∨ s.ty.toNat = 50)) ∧
      65535 < (rdata (.rrsig s)).length := by
  obtain ⟨fl, ar, qn, qt, qc, h1, h2, h3, h4, h5, h6, h7⟩ := (readHeader_iff resp an ns body).mp hh
  constructor
  · rintro ⟨fl', an', ns', ar', qn', qt', qc', body', recs, s, ttl, at_, h1', _, _, _, _, _, _, hr⟩
    obtain ⟨rfl, rfl, rfl⟩ := isMessage_body h1 h1'
    exact ⟨recs, s, ttl, at_, hr⟩
  · rintro ⟨recs, s, ttl, at_, hr⟩
    exact ⟨fl, an, ns, ar, qn, qt, qc, body, recs, s, ttl, at_, h1, h2, h3, h4, h5, h6, h7, hr⟩

theorem not_messageOversize {e : Unit} (hh : readHeader resp = .err e) : ¬ MessageOversize resp := by
  rintro ⟨fl, an, ns, ar, qn, qt, qc, body, recs, s, ttl, at_, h1, h2, h3, h4, h5, h6, h7, _⟩
  rw [(readHeader_iff resp an ns body).mpr ⟨fl, ar, qn, qt, qc, h1, h2, h3, h4, h5, h6, h7⟩] at hh
  exact nomatch hh

theorem records_split' : ∀ {dbg : Bool} {k : Nat} {r1 r2 : List (RR × UInt32)} {inp rest : Bytes},
    Records dbg resp k inp (r1 ++ r2) rest → ∃ mid, Records dbg resp r1.length inp r1 mid ∧ Records dbg resp r2.length mid r2 rest
  | dbg, k, [], r2, inp, rest, h => by
    have := records_length h
    rw [List.nil_append] at this h
    exact ⟨inp, .nil _, this ▸ h⟩
  | dbg, k, x :: r1, r2, inp, rest, h => by
    cases h with
    | cons g h =>
      obtain ⟨mid, a, b⟩ := records_split' h
      exact ⟨mid, .cons g a, b⟩

theorem records_readable {dbg : Bool} {n : Nat} {inp mid : Bytes} {l : List (RR × UInt32)} {proof : Bytes} {names : List Name}
    (a : Records dbg resp n inp l mid) : ∃ st', answersLoop dbg resp n ⟨inp, proof, names, 0xffffffff⟩ = (st', .ok ()) :=
  ⟨⟨mid, proof ++ encode l, names ++ signers l, l.foldl (fun t r => min t r.2) 0xffffffff⟩, answersLoop_ok.mpr ⟨l, a, ⟨rfl, rfl, rfl⟩⟩⟩

theorem handleResponseD_eq {proof : Bytes} {names : List Name} :
    (MessageOversize resp → (handleResponseD resp proof names).2 = .panic) ∧
    (¬ MessageOversize resp → handleResponseD resp proof names = handleResponse true resp proof names) := by
  unfold handleResponseD handleResponse
  cases hh : readHeader resp with
  | panic => exact absurd hh (readHeader_no_panic resp)
  | err e => exact ⟨fun h => absurd h (not_messageOversize hh), fun _ => rfl⟩
  | ok x =>
    obtain ⟨⟨an, ns⟩, body⟩ := x
    rw [messageOversize_iff hh]
    simp only
    obtain ⟨ha1, ha2⟩ := answersLoopD_eq (resp := resp) (n := an.toNat) (st := ⟨body, proof, names, 0xffffffff⟩)
    by_cases ho : OversizeIn resp (fun _ => True) an.toNat body
    · have := ha1 ho
      refine ⟨fun _ => ?_, fun h => ?_⟩
      · cases hd : answersLoopD resp an.toNat ⟨body, proof, names, 0xffffffff⟩ with
        | mk st r => rw [hd] at this; simp only at this; subst this; rfl
      · obtain ⟨recs, s, ttl, at_, hr, hl, _, hb⟩ := ho
        exact absurd ⟨recs, s, ttl, at_, hr, Or.inl hl, hb⟩ h
    · rw [ha2 ho]
      cases hans : answersLoop true resp an.toNat ⟨body, proof, names, 0xffffffff⟩ with
      | mk st r =>
        have notok : ∀ {l : List (RR × UInt32)} {k : Nat} {s : RRSig} {ttl : UInt32} {at_ : Bytes},
            Records true resp k body (l ++ [(.rrsig s, ttl)]) at_ → 65535 < (rdata (.rrsig s)).length →
            (l.length < an.toNat ∨ l.length < an.toNat + ns.toNat ∧ (s.ty.toNat = 47 ∨ s.ty.toNat = 50)) →
            ∃ r1 r2 mid, l = r1 ++ r2 ∧ r1.length = an.toNat ∧ Records true resp an.toNat body r1 mid ∧
              Records true resp (r2.length + 1) mid (r2 ++ [(.rrsig s, ttl)]) at_ ∧ r2.length < ns.toNat ∧
              (s.ty.toNat = 47 ∨ s.ty.toNat = 50) := by
          intro l k s ttl at_ hr hb hl
          have hk := records_length hr
          simp only [List.length_append, List.length_cons, List.length_nil] at hk
          rcases Nat.lt_or_ge l.length an.toNat with hlt | hge
          · exact absurd ⟨l, s, ttl, at_, by rw [hk]; exact hr, hlt, trivial, hb⟩ ho
          · rcases hl with hl | ⟨hl, hty⟩
            · omega
            · have e : l = l.take an.toNat ++ l.drop an.toNat := (List.take_append_drop _ _).symm
              have hlen : (l.take an.toNat).length = an.toNat := by rw [List.length_take]; omega
              rw [e, List.append_assoc] at hr
              obtain ⟨mid, a, b⟩ := records_split' hr
              rw [hlen] at a
              rw [List.length_append] at b
              exact ⟨_, _, mid, e, hlen, a, b, by rw [List.length_drop]; omega, hty⟩
        cases r with
        | panic => exact ⟨fun _ => rfl, fun _ => rfl⟩
        | err e =>
          refine ⟨?_, fun _ => rfl⟩
          rintro ⟨l, s, ttl, at_, hr, hl, hb⟩
          obtain ⟨r1, r2, mid, _, _, a, _⟩ := notok hr hb hl
          obtain ⟨st', e⟩ := records_readable (proof := proof) (names := names) a
          rw [hans] at e
          simp at e
        | ok u =>
          obtain ⟨r0, a0, _⟩ := answersLoop_ok.mp hans
          simp only at a0 ⊢
          obtain ⟨hb1, hb2⟩ := authoritiesLoopD_eq (resp := resp) (n := ns.toNat) (st := st)
          have hiff : (∃ recs s ttl at_, Records true resp (recs.length + 1) body (recs ++ [(.rrsig s, ttl)]) at_ ∧
              (recs.length < an.toNat ∨ recs.length < an.toNat + ns.toNat ∧ (s.ty.toNat = 47 ∨ s.ty.toNat = 50)) ∧
              65535 < (rdata (.rrsig s)).length) ↔
              OversizeIn resp (fun s => s.ty.toNat = 47 ∨ s.ty.toNat = 50) ns.toNat st.read := by
            constructor
            · rintro ⟨l, s, ttl, at_, hr, hl, hb⟩
              obtain ⟨r1, r2, mid, _, _, a, b, c, hty⟩ := notok hr hb hl
              obtain ⟨_, rfl⟩ := records_unique a0 a
              exact ⟨r2, s, ttl, at_, b, c, hty, hb⟩
            · rintro ⟨r2, s, ttl, at_, b, c, hty, hb⟩
              have hlen := records_length a0
              refine ⟨r0 ++ r2, s, ttl, at_, ?_, Or.inr ⟨by rw [List.length_append]; omega, hty⟩, hb⟩
              have := records_append a0 b
              rw [List.append_assoc, List.length_append, hlen]
              exact this
          rw [hiff]
          by_cases ho2 : OversizeIn resp (fun s => s.ty.toNat = 47 ∨ s.ty.toNat = 50) ns.toNat st.read
          · refine ⟨fun _ => ?_, fun h => absurd ho2 h⟩
            have := hb1 ho2
            cases hd : authoritiesLoopD resp ns.toNat st with
            | mk st' r => rw [hd] at this; simp only at this; subst this; rfl
          · rw [hb2 ho2]
            exact ⟨fun h => absurd h ho2, fun _ => rfl⟩

theorem processResponseD_eq {b : ProofBuilder} :
    (0 < b.pending → MessageOversize resp → (b.processResponseD resp).2 = .panic) ∧
    (¬ MessageOversize resp ∨ b.pending = 0 → b.processResponseD resp = b.processResponse true resp) := by
  unfold ProofBuilder.processResponseD ProofBuilder.processResponse
  obtain ⟨h1, h2⟩ := handleResponseD_eq (resp := resp) (proof := b.proof) (names := [])
  refine ⟨fun hp ho => ?_, fun h => ?_⟩
  · rw [if_neg (by omega)]
    have := h1 ho
    cases hd : handleResponseD resp b.proof [] with
    | mk x r => rw [hd] at this; simp only at this; subst this; rfl
  · by_cases hp : b.pending = 0
    · rw [if_pos hp, if_pos hp]
    · rw [if_neg hp, if_neg hp, h2 (h.resolve_right hp)]
      cases handleResponse true resp b.proof [] with
      | mk x r => cases r <;> rfl

theorem processResponseD_panic_iff {b : ProofBuilder} :
    (b.processResponseD resp).2 = .panic ↔ 0 < b.pending ∧ (MessagePanics true resp ∨ MessageOversize resp) := by
  obtain ⟨h1, h2⟩ := processResponseD_eq (resp := resp) (b := b)
  by_cases ho : MessageOversize resp
  · by_cases hp : b.pending = 0
    · rw [h2 (Or.inr hp), processResponse_panic_iff]; simp [hp]
    · exact ⟨fun _ => ⟨by omega, Or.inr ho⟩, fun h => h1 h.1 ho⟩
  · rw [h2 (Or.inl ho), processResponse_panic_iff]; simp [ho]

theorem processResponse_debug {b : ProofBuilder} (h : (b.processResponse true resp).2 ≠ .panic) :
    b.processResponse true resp = b.processResponse false resp := by
  unfold ProofBuilder.processResponse at h ⊢
  by_cases hp : b.pending = 0
  · rw [if_pos hp, if_pos hp]
  · rw [if_neg hp] at h ⊢
    rw [if_neg hp]
    have hd := handleResponse_debug (resp := resp) (proof := b.proof) (names := [])
    rw [← hd]
    intro hc
    apply h
    cases hr : handleResponse true resp b.proof [] with
    | mk x r => rw [hr] at hc; simp only at hc; subst hc; rfl

theorem processResponseD_release {b : ProofBuilder} (h : (b.processResponseD resp).2 ≠ .panic) :
    b.processResponseD resp = b.processResponse false resp := by
  obtain ⟨h1, h2⟩ := processResponseD_eq (resp := resp) (b := b)
  have : ¬ MessageOversize resp ∨ b.pending = 0 := by
    by_cases hp : b.pending = 0
    · exact Or.inr hp
    · exact Or.inl (fun ho => h (h1 (by omega) ho))
  rw [h2 this] at h ⊢
  exact processResponse_debug h

theorem driveLoopD_release : ∀ (fuel : Nat) (b : ProofBuilder) (s : Stream), (∀ s', driveLoopD fuel b s ≠ some (s', .panic)) →
    driveLoopD fuel b s = driveLoop false fuel b s := by
  intro fuel
  induction fuel with
  | zero =>
    intro b s _
    unfold driveLoopD driveLoop
    split
    · rfl
    · rfl
  | succ fuel ih =>
    intro b s h
    unfold driveLoopD at h ⊢
    unfold driveLoop
    by_cases ha : b.awaiting = true
    · rw [if_pos ha] at h ⊢
      rw [if_pos ha]
      cases hr : readResponse s with
      | none => rfl
      | some x =>
        obtain ⟨m, s1⟩ := x
        rw [hr] at h
        simp only at h ⊢
        have hp : (b.processResponseD m).2 ≠ .panic := by
          intro hc
          cases hd : b.processResponseD m with
          | mk b' r =>
            rw [hd] at hc h
            simp only at hc
            subst hc
            exact h s1 rfl
        have e := processResponseD_release hp
        rw [e] at h ⊢
        cases hd : b.processResponse false m with
        | mk b' r =>
          rw [hd] at h
          cases r with
          | err e => rfl
          | panic => rfl
          | ok qs =>
            simp only at h ⊢
            cases hs : sendAll s1 qs with
            | none => rfl
            | some s2 =>
              rw [hs] at h
              exact ih b' s2 h
    · rw [if_neg ha, if_neg ha]
      rfl

theorem buildProofD_release {fuel : Nat} {s : Stream} {name : Name} {ty : UInt16} (h : ∀ s', buildProofD fuel s name ty ≠ some (s', .panic)) :
    buildProofD fuel s name ty = buildProof false fuel s name ty := by
  unfold buildProofD at h ⊢
  unfold buildProof
  simp only at h ⊢
  cases hs : sendQuery s (ProofBuilder.new name ty).2 with
  | none => rfl
  | some s1 =>
    rw [hs] at h
    exact driveLoopD_release fuel _ s1 h

theorem records_le {dbg : Bool} {k : Nat} {inp rest : Bytes} {l : List (RR × UInt32)} (h : Records dbg resp k inp l rest) : rest.length ≤ inp.length := by
  induction h with
  | nil => exact Nat.le_refl _
  | cons g _ ih =>
    obtain ⟨_, _, _, _, g1, g2, _⟩ := g
    obtain ⟨q, e⟩ := readName_suffix (readName_reads.mpr g1)
    rw [e, g2]
    simp only [List.length_append]
    omega

/-- Messages of up to 65280 octets have no record that is too long. -/
theorem not_oversize_of_le (h : resp.length ≤ 65280) : ¬ MessageOversize resp := by
  rintro ⟨fl, an, ns, ar, qn, qt, qc, body, recs, s, ttl, at_, ⟨ah, e, hq⟩, _, _, _, _, _, _, hr, _, hb⟩
  obtain ⟨p, e1⟩ := readName_suffix (readName_reads.mpr hq)
  have hbody : body.length ≤ resp.length := by rw [e, e1]; simp; omega
  obtain ⟨mid, a, b⟩ := records_split' hr
  have hm := records_le a
  cases b with
  | cons g _ =>
    rcases wire_sized (parseWirePacketRR_iff.mpr g) with h' | ⟨s', e', h1, h2, h3⟩
    · omega
    · simp only [RR.rrsig.injEq] at e'
      subst e'
      rw [rdata_rrsig] at hb
      simp only [List.length_append, List.length_cons, be16_length, be32_length] at hb
      omega

end Dnssec
