import Verif.Spec.Wasm
import Verif.Proofs.JsonRecords
import Verif.Proofs.Builder

/-! # Proofs about the WASM interface -/

namespace Dnssec

open Spec

/-! ### The queue -/

theorem initProofBuilder_some {name : Bytes} {ty : UInt16} {w : WasmBuilder} (h : initProofBuilder name ty = some w) :
    ∃ n, (Denotes name n ∨ (name.getLast? ≠ some 46 ∧ Denotes (name ++ [46]) n)) ∧
      w = ⟨(ProofBuilder.new n ty).1, [(ProofBuilder.new n ty).2]⟩ := by
  unfold initProofBuilder at h
  by_cases hd : name.getLast? = some dot
  · rw [if_pos hd] at h
    cases hn : Name.tryFrom name with
    | none => rw [hn] at h; simp at h
    | some n =>
      rw [hn] at h
      simp only [Option.some.injEq] at h
      exact ⟨n, Or.inl ((tryFrom_denotes _ _).mp hn), h.symm⟩
  · rw [if_neg hd] at h
    cases hn : Name.tryFrom (name ++ [dot]) with
    | none => rw [hn] at h; simp at h
    | some n =>
      rw [hn] at h
      simp only [Option.some.injEq] at h
      exact ⟨n, Or.inr ⟨hd, (tryFrom_denotes _ _).mp hn⟩, h.symm⟩

theorem responses_append (a b : List WasmCall) : responses (a ++ b) = responses a ++ responses b := by simp [responses]

theorem processQueryResponse_some {dbg : Bool} {w w' : WasmBuilder} {resp : Bytes} (h : processQueryResponse dbg w resp = some w') :
    (65535 ≤ resp.length ∧ w' = w) ∨
    (resp.length < 65535 ∧ ∃ more, w.builder.processResponse dbg resp = (w'.builder, .ok more) ∧ w'.queue = w.queue ++ more) ∨
    (resp.length < 65535 ∧ w.builder.processResponse dbg resp = (w'.builder, .err ()) ∧ w'.queue = w.queue) := by
  unfold processQueryResponse at h
  by_cases hl : resp.length < 65535
  · rw [if_pos hl] at h
    refine Or.inr ?_
    split at h
    · rename_i b qs hp
      simp only [Option.some.injEq] at h
      subst h
      exact Or.inl ⟨hl, qs, hp, rfl⟩
    · rename_i b hp
      simp only [Option.some.injEq] at h
      subst h
      exact Or.inr ⟨hl, hp, rfl⟩
    · exact nomatch h
  · rw [if_neg hl] at h
    simp only [Option.some.injEq] at h
    exact Or.inl ⟨by omega, h.symm⟩

theorem wasmRun_run {dbg : Bool} {n : Name} {ty : UInt16} {calls : List WasmCall} {w : WasmBuilder} {got : List (Option Bytes)}
    (h : WasmRun dbg ⟨(ProofBuilder.new n ty).1, [(ProofBuilder.new n ty).2]⟩ calls w got) :
    ∃ acc rej qs, Run dbg n ty acc rej qs w.builder ∧ got.filterMap id ++ w.queue = qs ∧
      Interleaving acc rej ((responses calls).filter (fun r => decide (r.length < 65535))) := by
  induction h with
  | init => exact ⟨[], [], _, Run.new, rfl, Interleaving.nil⟩
  | @process calls w w' got resp _ hp ih =>
    obtain ⟨acc, rej, qs, h1, h2, h3⟩ := ih
    have e : (responses (calls ++ [.process resp])).filter (fun r => decide (r.length < 65535)) =
        (responses calls).filter (fun r => decide (r.length < 65535)) ++ [resp].filter (fun r => decide (r.length < 65535)) := by
      rw [responses_append, List.filter_append]; rfl
    rw [e]
    rcases processQueryResponse_some hp with ⟨hl, rfl⟩ | ⟨hl, more, hr, hq⟩ | ⟨hl, hr, hq⟩
    · rw [List.filter_cons_of_neg (by simp; omega), List.filter_nil, List.append_nil]
      exact ⟨acc, rej, qs, h1, h2, h3⟩
    · rw [List.filter_cons_of_pos (by simpa using hl), List.filter_nil]
      exact ⟨_, _, _, h1.accept hr, by rw [hq, ← List.append_assoc, h2], h3.left resp⟩
    · rw [List.filter_cons_of_pos (by simpa using hl), List.filter_nil]
      exact ⟨_, _, _, h1.reject hr, by rw [hq, h2], h3.right resp⟩
  | @next calls w w' got q _ hg ih =>
    obtain ⟨acc, rej, qs, h1, h2, h3⟩ := ih
    have e : responses (calls ++ [.next]) = responses calls := by rw [responses_append]; simp [responses]
    rw [e]
    unfold getNextQuery at hg
    split at hg
    · rename_i query queue hq
      simp only [Prod.mk.injEq] at hg
      obtain ⟨rfl, rfl⟩ := hg
      exact ⟨acc, rej, qs, h1, by rw [← h2, hq]; simp, h3⟩
    · rename_i hq
      simp only [Prod.mk.injEq] at hg
      obtain ⟨rfl, rfl⟩ := hg
      exact ⟨acc, rej, qs, h1, by rw [← h2]; simp, h3⟩

/-! ### The JSON of a verified stream -/

theorem rrsJson_succ (i j : Nat) : ∀ rrs : List RR, rrsJson (i + 1) rrs = rrsJson (j + 1) rrs
  | [] => rfl
  | rr :: rrs => by
    rw [rrsJson, rrsJson, if_pos (by omega), if_pos (by omega), rrsJson_succ (i + 1) (j + 1) rrs]

theorem elems_rrs (w : Bytes) (hw : Ws w) : ∀ (rr : RR) (rrs : List RR) (objs : List (List (Bytes × JVal))),
    objs.length = (rr :: rrs).length → (∀ p ∈ (rr :: rrs).zip objs, Value p.1.json (.obj p.2)) →
    Elems (w ++ (rr.json ++ rrsJson 1 rrs)) (objs.map .obj)
  | rr, rrs, [], hl, _ => by simp at hl
  | rr, [], o :: os, hl, h => by
    have : os = [] := by simpa using hl
    subst this
    exact Elems.one hw (h (rr, o) (by simp)) ws_nil
  | rr, r2 :: rrs, o :: os, hl, h => by
    have ih := elems_rrs [32] ws_space r2 rrs os (by simpa using hl) (fun p hp => h p (by simp [hp]))
    have := Elems.cons hw (h (rr, o) (by simp)) ws_nil ih
    rw [rrsJson, if_pos (by omega), rrsJson_succ 1 0 rrs]
    exact this

theorem value_rrs (rrs : List RR) (objs : List (List (Bytes × JVal))) (hl : objs.length = rrs.length)
    (h : ∀ p ∈ rrs.zip objs, Value p.1.json (.obj p.2)) : Value (91 :: (rrsJson 0 rrs ++ [93])) (.arr (objs.map .obj)) := by
  cases rrs with
  | nil =>
    have : objs = [] := by simpa using hl
    subst this
    exact .arrEmpty ws_nil
  | cons rr rrs =>
    have := elems_rrs [] ws_nil rr rrs objs hl h
    exact .arr this

theorem rrsJson_utf8 : ∀ (i : Nat) (rrs : List RR), (∀ r ∈ rrs, utf8Valid r.json = true) → utf8Valid (rrsJson i rrs) = true
  | _, [], _ => utf8Valid_ascii (by simp [rrsJson])
  | i, rr :: rrs, h => by
    rw [rrsJson]
    refine utf8Valid_append ?_ (utf8Valid_append (h rr (by simp)) (rrsJson_utf8 _ rrs (fun r hr => h r (by simp [hr]))))
    split
    · exact utf8Valid_ascii (show IsAscii _ by decide)
    · exact utf8Valid_ascii (by simp)

/-- Choosing an object for each record. -/
theorem choose_objs : ∀ (rrs : List RR), (∀ r ∈ rrs, ∃ ms, Value r.json (.obj ms) ∧ JsonOf r ms) →
    ∃ objs : List (List (Bytes × JVal)), objs.length = rrs.length ∧ ∀ p ∈ rrs.zip objs, Value p.1.json (.obj p.2) ∧ JsonOf p.1 p.2
  | [], _ => ⟨[], rfl, by simp⟩
  | r :: rs, h => by
    obtain ⟨ms, h1, h2⟩ := h r (by simp)
    obtain ⟨objs, h3, h4⟩ := choose_objs rs (fun x hx => h x (by simp [hx]))
    refine ⟨ms :: objs, by simp [h3], ?_⟩
    intro p hp
    simp only [List.zip_cons_cons, List.mem_cons] at hp
    rcases hp with rfl | hp
    · exact ⟨h1, h2⟩
    · exact h4 p hp

theorem verifiedJson_value {v : Verified} (h : ∀ r ∈ v.verifiedRrs, ∃ ms, Value r.json (.obj ms) ∧ JsonOf r ms)
    (hu : ∀ r ∈ v.verifiedRrs, utf8Valid r.json = true) : ∃ j, JsonText (verifiedJson v) j ∧ VerifiedVal v j := by
  obtain ⟨objs, hl, ho⟩ := choose_objs v.verifiedRrs h
  refine ⟨_, ⟨?_, [], verifiedJson v, [], by simp, ws_nil, ?_, ws_nil⟩, objs, hl, fun p hp => (ho p hp).2, rfl⟩
  · have d := fun n => utf8Valid_ascii (decimal_ascii n)
    apply utf8Valid_iff.mp
    exact utf8Valid_append (utf8Valid_ascii (show IsAscii _ by decide)) (utf8Valid_append (d _) (utf8Valid_append
      (utf8Valid_ascii (show IsAscii _ by decide)) (utf8Valid_append (d _) (utf8Valid_append (utf8Valid_ascii (show IsAscii _ by decide))
      (utf8Valid_append (d _) (utf8Valid_append (utf8Valid_ascii (show IsAscii _ by decide)) (utf8Valid_append (rrsJson_utf8 _ _ hu)
      (utf8Valid_ascii (show IsAscii _ by decide)))))))))
  · have k := fun (s : Bytes) (hs : Plain s) => plain_chars hs
    have m4 := Members.one ws_space (k (ascii "verified_rrs") (by decide)) ws_nil ws_space
      (value_rrs v.verifiedRrs objs hl fun p hp => (ho p hp).1) ws_nil
    have m3 := Members.cons ws_space (k (ascii "max_cache_ttl") (by decide)) ws_nil ws_space (value_decimal v.maxCacheTtl.toNat) ws_nil m4
    have m2 := Members.cons ws_space (k (ascii "expires") (by decide)) ws_nil ws_space (value_decimal v.expires) ws_nil m3
    have m1 := Members.cons ws_nil (k (ascii "valid_from") (by decide)) ws_nil ws_space (value_decimal v.validFrom) ws_nil m2
    have := Value.obj m1
    refine Eq.mp (congrArg (fun t => Value t _) ?_) this
    simp only [verifiedJson, List.nil_append, List.append_nil, List.append_assoc, List.cons_append]
    rfl

theorem errorJson_value (e : VErr) : JsonText (errorJson e) (.obj [(ascii "error", .str e.debug)]) := by
  have hp : Plain e.debug := by cases e <;> decide
  refine ⟨utf8Valid_iff.mp (by cases e <;> decide +kernel), [], errorJson e, [], by simp, ws_nil, ?_, ws_nil⟩
  have := value_record [(ascii "error", quoted e.debug, .str e.debug)] (text := errorJson e) (by simp)
    (by simp only [List.mem_singleton, forall_eq]; exact ⟨show Plain (ascii "error") by decide, value_quoted hp⟩)
    (by simp only [errorJson, List.map_cons, List.map_nil, renderMembers, quoted, List.append_assoc, List.cons_append]; rfl)
  exact this

theorem stream_names {dbg : Bool} {inp : Bytes} {rrs : List RR} (h : parseRRStream dbg inp = .ok rrs) :
    ∀ r ∈ rrs, Obtainable r.name ∧ ∀ n ∈ rdataNames r, Obtainable n := by
  obtain ⟨ps, _, rfl, hp⟩ := (parseRRStream_iff dbg inp rrs).mp h
  intro r hr
  rw [List.mem_map] at hr
  obtain ⟨p, hm, rfl⟩ := hr
  obtain ⟨ttl, h0⟩ := parseRR_ok (hp p hm)
  obtain ⟨name, ty, data, r1, h1, _, _, h4⟩ := parseWirePacketRR_ok h0
  obtain ⟨p1, _, p3, _⟩ := readRData_props h4
  exact ⟨p1 ▸ readName_obtainable h1, p3⟩

end Dnssec
