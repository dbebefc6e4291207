import Verif.Spec.Disclosed
import Verif.Proofs.Honest
import Verif.Proofs.PlainMessage
import Verif.Proofs.Doh

/-! # Lemmas for C120 -/

set_option autoImplicit false

namespace Dnssec

open Spec

theorem asks_eq_zoneQueries (k : Name) : asks k = zoneQueries k := by
  have e : k = rootName ↔ k.bytes = [dot] := by
    constructor
    · rintro rfl; rfl
    · intro h; cases k; simp only at h; subst h; rfl
  unfold zoneQueries
  by_cases h : k.bytes = [dot]
  · rw [asks_root h, if_pos (e.mpr h), queryBytes_eq, writeName_eq_nameWire]
  · rw [asks_other h, if_neg (fun x => h (e.mp x)), queryBytes_eq, queryBytes_eq, writeName_eq_nameWire]

theorem nameWithin_trans {a b c : Name} (h1 : NameWithin a b) (h2 : NameWithin b c) : NameWithin a c := by
  obtain ⟨al, bl, ha, hb, pre, e1⟩ := h1
  obtain ⟨bl', cl, hb', hc, pre', e2⟩ := h2
  cases hb.unique hb'
  exact ⟨al, cl, ha, hc, pre ++ pre', by rw [e1, e2, List.append_assoc]⟩

theorem needs_within {p : Platform} {w : World} (hw : w.Signed p) (hs : w.SignedWithin) {z : Name} (h : w.Needs z) :
    ∃ s ∈ w.answer, NameWithin s.owner z := by
  induction h with
  | answer s sig h1 h2 => exact ⟨s, h1, hs s (mem_worldSets.mpr (Or.inl h1)) sig h2⟩
  | parent z sig h1 _ h3 ih =>
    obtain ⟨s, h4, h5⟩ := ih
    have := hs z.ds (mem_worldSets.mpr (Or.inr (Or.inr ⟨z, h1, Or.inr rfl⟩))) sig h3
    rw [(hw.zoneSets z h1).2.2] at this
    exact ⟨s, h4, nameWithin_trans h5 this⟩

theorem zoneNames_needed {p : Platform} {w : World} (hw : w.Signed p) {k : Name} (h : k ∈ zoneNames w) : w.Needs k := by
  rcases mem_zoneNames.mp h with rfl | ⟨z, hz, rfl⟩
  · exact hw.needed.1
  · exact hw.needed.2 z hz

/-- An RRSIG (of nothing) that names `k` as its signer. -/
def lureSig (k : Name) : RRSig := ⟨rootName, 1, 0, 0, 0, 0, 0, 0, k, []⟩

theorem lureSig_encodable {k : Name} {ls : List Bytes} (h : HasLabels k ls) : Encodable (.rrsig (lureSig k)) where
  owner := ⟨[], show HasLabels rootName [] by decide⟩
  inner := by intro n hn; simp only [rdataNames, lureSig, List.mem_singleton] at hn; subst hn; exact ⟨ls, h⟩
  txtNonempty := by intro t ht; cases ht
  fits := by
    have h1 : (nameWire k.bytes).length ≤ 256 := by rw [nameWire_labels h]; exact h.wire_length_le
    simp only [rdata, lureSig, List.length_append, List.length_cons, List.length_nil, be16, be32]
    omega
  nsec3 := by intro n hn; cases hn

theorem signers_lure (ks : List Name) : signers (ks.map fun k => (RR.rrsig (lureSig k), (0 : UInt32))) = ks := by
  induction ks with
  | nil => rfl
  | cons k ks ih =>
    simp only [signers, lureSig, List.map_cons, List.filterMap_cons, List.cons.injEq, true_and] at ih ⊢
    exact ih

theorem perm_of_nodup_mem {ks new : List Name} (h1 : ks.Nodup) (h2 : new.Nodup) (h : ∀ k, k ∈ new ↔ k ∈ ks) : new.Perm ks :=
  (List.perm_ext_iff_of_nodup h2 h1).mpr h

theorem cost_le (ks : List Name) : cost ks ≤ 2 * ks.length := by
  induction ks with
  | nil => simp [cost]
  | cons k ks ih =>
    have : (questions k).length ≤ 2 := by unfold questions; split <;> simp
    simp only [cost, List.map_cons, List.sum_cons, List.length_cons] at ih ⊢
    omega

/-- One response makes a builder that has not asked for any zone yet ask for all of the zones given. -/
theorem lured {dbg : Bool} (name : Name) (ty : UInt16) {ks : List Name} (hne : ks ≠ []) (hd : ks.Nodup) (h4 : ks.length ≤ 4)
    (hk : ∀ k ∈ ks, ∃ ls, HasLabels k ls) :
    ∃ b more, (ProofBuilder.new name ty).1.processResponse dbg (plainMessage [] 1 (ks.map fun k => (RR.rrsig (lureSig k), (0 : UInt32)))) =
      (b, .ok more) ∧ more.Perm (ks.flatMap zoneQueries) ∧ b.awaiting = true := by
  have hc : Contributes dbg (plainMessage [] 1 (ks.map fun k => (RR.rrsig (lureSig k), (0 : UInt32))))
      (ks.map fun k => (RR.rrsig (lureSig k), (0 : UInt32))) := by
    refine contributes_plain (by simp) (by decide) 1 (by simpa using hne) (by rw [List.length_map]; omega) ?_
    intro r hr
    obtain ⟨k, hk', rfl⟩ := List.mem_map.mp hr
    obtain ⟨ls, hl⟩ := hk k hk'
    exact lureSig_encodable hl
  obtain ⟨b, more, hb⟩ := ProofBuilder.processResponse_accepts (b := (ProofBuilder.new name ty).1) (by simp [ProofBuilder.new]) hc
  obtain ⟨recs, ttl, new, _, hc', _, h1, _, h3, e1, e2⟩ := ProofBuilder.processResponse_ok hb
  cases contributes_unique hc hc'
  rw [signers_lure] at h3
  have hp : new.Perm ks := perm_of_nodup_mem hd h1 (by simpa [ProofBuilder.new] using h3)
  have hcost := cost_le new
  have hl := hp.length_eq
  have hm : (ProofBuilder.new name ty).1.made + cost new ≤ 10 := by simp only [ProofBuilder.new]; omega
  rw [if_pos hm] at e2
  refine ⟨b, more, hb, ?_, ?_⟩
  · rw [e2, show asks = zoneQueries from funext asks_eq_zoneQueries]
    exact hp.flatMap_right _
  · subst e1
    obtain ⟨k, rest, e⟩ := List.exists_cons_of_ne_nil (l := new) (fun h => hne (by subst h; exact hp.nil_eq.symm))
    have hpos : 0 < cost new := by
      rw [e]; simp only [cost, List.map_cons, List.sum_cons]
      have : 0 < (questions k).length := by unfold questions; split <;> simp
      omega
    simp only [ProofBuilder.awaiting, maxRequests, Bool.and_eq_true, decide_eq_true_eq]
    exact ⟨by omega, hm⟩

theorem interleaving_left {α : Type} {a b s : List α} (h : Interleaving a b s) {x : α} (hx : x ∈ a) : x ∈ s := by
  induction h with
  | nil => exact hx
  | left y _ ih =>
    rcases List.mem_append.mp hx with hx | hx
    · exact List.mem_append_left _ (ih hx)
    · exact List.mem_append_right _ hx
  | right y _ ih => exact List.mem_append_left _ (ih hx)

theorem answered_body {endpoint : Bytes} {fetch : Nat → Bytes → Fetch} {asked bodies : List Bytes} (h : Answered endpoint fetch asked bodies)
    {body : Bytes} (hb : body ∈ bodies) : ∃ k, ∃ q ∈ asked, fetch k (dohGet endpoint q) = .body body := by
  induction h with
  | nil => simp at hb
  | @snoc asked bodies q b _ hf ih =>
    rcases List.mem_append.mp hb with hb | hb
    · obtain ⟨k, q', hq, e⟩ := ih hb
      exact ⟨k, q', List.mem_append_left _ hq, e⟩
    · rw [List.mem_singleton] at hb
      subst hb
      exact ⟨asked.length, q, by simp, hf⟩

end Dnssec
