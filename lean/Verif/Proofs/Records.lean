import Verif.Proofs.Canonical
import Verif.Proofs.Wire
import Verif.Proofs.Stream

/-! # Records on the wire -/

namespace Dnssec

open Spec

theorem not_ok_not_panic {ε α : Type} {x : Res ε α} (h1 : ∀ v, x ≠ .ok v) (h2 : x ≠ .panic) : ∃ e, x = .err e := by
  cases x with
  | ok v => exact absurd rfl (h1 v)
  | err e => exact ⟨e, rfl⟩
  | panic => exact absurd rfl h2

theorem ReadsName_functional {msg inp : Bytes} {n n' : Name} {rest rest' : Bytes} (h : ReadsName msg inp n rest)
    (h' : ReadsName msg inp n' rest') : n = n' ∧ rest = rest' := by
  have h := readName_reads.mpr h
  rw [readName_reads.mpr h'] at h
  simp only [Res.ok.injEq, Prod.mk.injEq] at h
  exact ⟨h.1.symm, h.2.symm⟩

/-- What `parseWirePacketRR` does to an input depends on its header. -/
theorem parse_err_of_header {dbg : Bool} {msg inp : Bytes} {owner : Name} {ty c : UInt16} {x : Bytes}
    (h : ReadsName msg inp owner (be16 ty ++ be16 c ++ x)) (hbad : c ≠ 1 ∨ ty ∉ ([1, 2, 5, 16, 28, 39, 43, 46, 47, 48, 50, 52] : List UInt16)) :
    parseWirePacketRR dbg msg inp = .err () := by
  have key : ∀ (ty' : UInt16) (y : Bytes), be16 ty ++ be16 c ++ x = be16 ty' ++ (be16 1 ++ y) → ty' = ty ∧ c = 1 := by
    intro ty' y e
    rw [List.append_assoc] at e
    obtain ⟨e1, e2⟩ := List.append_inj e (by simp)
    obtain ⟨e2, _⟩ := List.append_inj e2 (by simp)
    exact ⟨(be16_inj e1).symm, be16_inj e2⟩
  cases hr : parseWirePacketRR dbg msg inp with
  | err e => rfl
  | ok v =>
    obtain ⟨r, rest⟩ := v
    rw [parseWirePacketRR_iff] at hr
    obtain ⟨o, ty', data, after, h1, h2, _, h4⟩ := hr
    obtain ⟨_, e⟩ := ReadsName_functional h h1
    rw [h2] at e
    simp only [List.append_assoc] at e key
    obtain ⟨rfl, rfl⟩ := key _ _ e
    exfalso
    rcases hbad with hb | hb
    · exact hb rfl
    · apply hb
      generalize hk : ty'.toNat = k at h4
      generalize r.1 = r0 at h4
      have : ∀ u : UInt16, u.toNat = k → ty' = u := fun u hu => UInt16.toNat_inj.mp (by omega)
      cases h4
      · simp [this 1 rfl]
      · simp [this 2 rfl]
      · simp [this 5 rfl]
      · simp [this 16 rfl]
      · simp [this 28 rfl]
      · simp [this 39 rfl]
      · simp [this 43 rfl]
      · simp [this 46 rfl]
      · simp [this 47 rfl]
      · simp [this 48 rfl]
      · simp [this 50 rfl]
      · simp [this 52 rfl]
  | panic =>
    rw [parseWirePacketRR_panic_iff] at hr
    obtain ⟨o, ty', ttl, data, after, rest, h1, h2, _, h4⟩ := hr
    obtain ⟨_, e⟩ := ReadsName_functional h (readName_reads.mp h1)
    rw [h2] at e
    obtain ⟨rfl, rfl⟩ := key _ _ e
    exfalso
    rcases hbad with hb | hb
    · exact hb rfl
    · apply hb
      cases h4 with
      | nsec => simp
      | nsec3 => simp
      | trailing _ _ _ _ _ h => rcases h with rfl | rfl | rfl <;> simp

theorem parsePanic_append {dbg : Bool} {inp : Bytes} (h : parseWirePacketRR dbg [] inp = .panic) (x : Bytes) :
    parseWirePacketRR dbg [] (inp ++ x) = .panic := by
  rw [parseWirePacketRR_panic_iff] at h ⊢
  obtain ⟨o, ty, ttl, data, after, rest, h1, h2, h3, h4⟩ := h
  exact ⟨o, ty, ttl, data, after ++ x, rest ++ x, readName_nil_append h1 x, by rw [h2]; simp, h3, h4⟩

theorem parseRR_panic {dbg : Bool} {inp : Bytes} (h : parseWirePacketRR dbg [] inp = .panic) : parseRR dbg inp = .panic := by
  unfold parseRR; rw [h]; rfl

/-- A non-empty strict prefix of a record is not a stream. -/
theorem stream_truncated {dbg : Bool} {p q : Bytes} {rr : RR} (h : parseRR dbg (p ++ q) = .ok (rr, [])) (hp : p ≠ []) (hq : q ≠ []) :
    parseRRStream dbg p = .err () := by
  have noRec : ∀ r rest, parseRR dbg p ≠ .ok (r, rest) := by
    intro r rest hr
    have := parseRR_append hr q
    rw [h] at this
    simp only [Res.ok.injEq, Prod.mk.injEq] at this
    have := congrArg List.length this.2
    have := List.length_pos_iff.mpr hq
    simp at *; omega
  cases hr : parseRRStream dbg p with
  | err e => rfl
  | ok rrs =>
    exfalso
    rw [parseRRStream_iff] at hr
    obtain ⟨ps, e1, _, e2⟩ := hr
    cases ps with
    | nil => exact hp (by rw [e1]; rfl)
    | cons a ps =>
      have := parseRR_append (e2 a (by simp)) (ps.map Prod.fst).flatten
      rw [List.map_cons, List.flatten_cons] at e1
      rw [← e1] at this
      exact noRec _ _ this
  | panic =>
    exfalso
    rw [parseRRStream_panic_iff] at hr
    obtain ⟨a, b, rrs, e1, e2, e3, e4⟩ := hr
    rw [parseRRStream_iff] at e3
    obtain ⟨ps, f1, _, f2⟩ := e3
    cases ps with
    | nil =>
      have : p = b := by rw [e1, f1]; rfl
      rw [← this] at e4
      have := parseRR_panic (parsePanic_append e4 q)
      rw [h] at this
      cases this
    | cons c ps =>
      have := parseRR_append (f2 c (by simp)) ((ps.map Prod.fst).flatten ++ b)
      rw [← List.append_assoc] at this
      rw [List.map_cons, List.flatten_cons] at f1
      rw [← f1, ← e1] at this
      exact noRec _ _ this

/-- The records of the beginning of a stream are the first records of the stream. -/
theorem stream_prefix {dbg : Bool} {a b : Bytes} {rrs xs : List RR} (h : parseRRStream dbg (a ++ b) = .ok rrs)
    (ha : parseRRStream dbg a = .ok xs) : ∃ ys, rrs = xs ++ ys ∧ parseRRStream dbg b = .ok ys := by
  rw [parseRRStream_iff] at ha
  obtain ⟨ps, rfl, rfl, h1⟩ := ha
  induction ps generalizing rrs with
  | nil => exact ⟨rrs, rfl, h⟩
  | cons p ps ih =>
    have hp := parseRR_append (h1 p (by simp)) ((ps.map Prod.fst).flatten ++ b)
    rw [List.map_cons, List.flatten_cons, List.append_assoc, parseRRStream_step hp, List.nil_append, map_ok_iff] at h
    obtain ⟨zs, h2, h3⟩ := h
    obtain ⟨ys, e1, e2⟩ := ih h2 (fun q hq => h1 q (by simp [hq]))
    refine ⟨ys, ?_, e2⟩
    rw [h3, e1]; rfl

theorem typeNumber_eq (r : RR) : r.ty.toNat = typeNumber r := by cases r <;> rfl

/-- What `write_rr` writes. -/
theorem writeRR_eq (rr : RR) (ttl : UInt32) (h : ∀ t, rr = .txt t → t.data ≠ []) :
    writeRR rr ttl = nameWire rr.name.bytes ++ be16 (UInt16.ofNat (typeNumber rr)) ++ be16 1 ++ be32 ttl ++
      be16 (UInt16.ofNat (rdata rr).length) ++ rdata rr := by
  unfold writeRR
  rw [writeData_eq rr h, writeName_eq_nameWire, ← typeNumber_eq]
  simp

theorem readsRData_typeNumber {dbg : Bool} {msg : Bytes} {owner : Name} {ty : Nat} {data : Bytes} {r : RR}
    (h : ReadsRData dbg msg owner ty data r) : ty = typeNumber r ∧ r.name = owner := by
  cases h <;> exact ⟨rfl, rfl⟩

/-- A record read from a stream is written back as it was exactly if it is in canonical form. -/
theorem record_canonical {dbg : Bool} {p : Bytes} {r : RR} {ttl : UInt32} (h : ReadsRecord dbg [] p (r, ttl) [])
    (ht : ∀ t, r = .txt t → t.data ≠ []) :
    writeRR r ttl = p ↔ ∃ ls data, (∀ l ∈ ls, Label l) ∧ CanonicalRData (typeNumber r) data ∧
      p = wire ls ++ be16 (UInt16.ofNat (typeNumber r)) ++ be16 1 ++ be32 ttl ++ be16 (UInt16.ofNat data.length) ++ data := by
  obtain ⟨owner, ty, data, after, h1, h2, h3, h4⟩ := h
  obtain ⟨e1, e2⟩ := readsRData_typeNumber h4
  have hty : UInt16.ofNat (typeNumber r) = ty := by rw [← e1]; simp
  rw [writeRR_eq r ttl ht, hty, e2]
  simp only [List.append_nil] at h2
  have key := readsName_canonical h1 (be16 ty ++ be16 1 ++ be32 ttl ++ be16 (UInt16.ofNat (rdata r).length) ++ rdata r)
  simp only [List.append_assoc] at key h2 ⊢
  rw [key]
  rw [e1] at h4
  constructor
  · rintro ⟨g1, ls, g2, g3⟩
    refine ⟨ls, data, g2, ?_, by rw [g3, h2]⟩
    rw [← rdata_canonical h4]
    rw [h2] at g1
    simp only [List.append_right_inj] at g1
    exact (List.append_inj' g1 (by
      have := congrArg List.length g1
      simp at this; exact this)).2
  · rintro ⟨ls, data', g1, g2, g3⟩
    rw [g3] at h1
    have hafter := readsName_wire g1 h1
    rw [h2] at hafter
    simp only [List.append_right_inj] at hafter
    have hd : data = data' := (List.append_inj hafter (by simp)).2
    subst hd
    rw [(rdata_canonical h4).mpr g2]
    exact ⟨h2.symm, ls, g1, by rw [g3, h2]⟩

end Dnssec
