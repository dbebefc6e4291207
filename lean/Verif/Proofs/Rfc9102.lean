import Verif.Spec.Rfc9102
import Verif.Proofs.Honest

/-! # Authentication chains -/

namespace Dnssec

open Spec

theorem perm_map_lift {α β : Type} {f : α → β} : ∀ {l : List β} {m : List α}, l.Perm (m.map f) → ∃ m' : List α, m'.Perm m ∧ m'.map f = l
  | [], m, h => by
    have := h.symm.eq_nil
    rw [List.map_eq_nil_iff] at this
    exact ⟨[], by rw [this], rfl⟩
  | b :: l, m, h => by
    obtain ⟨a, ha, rfl⟩ := List.mem_map.mp (h.mem_iff.mp (List.mem_cons_self ..))
    obtain ⟨m1, m2, rfl⟩ := List.append_of_mem ha
    have h' : l.Perm ((m1 ++ m2).map f) := by
      refine List.Perm.cons_inv (a := f a) (h.trans ?_)
      rw [List.map_append, List.map_cons, List.map_append]
      exact List.perm_middle
    obtain ⟨m', h1, h2⟩ := perm_map_lift h'
    exact ⟨a :: m', (h1.cons a).trans List.perm_middle.symm, by rw [List.map_cons, h2]⟩

theorem blocks_perm {ss : List SignedSet} {rest : List (RR × UInt32)} (h : Blocks ss rest) :
    (rest.map Prod.fst).Perm (ss.flatMap SignedSet.all) := by
  induction h with
  | nil => exact .nil
  | cons h _ ih => rw [List.map_append, List.flatMap_cons]; exact h.append ih

variable {dbg : Bool} {w : World} {name : Name} {ty : UInt16} {resolve : Bytes → Bytes} {p : Platform}

/-- The question is answered first. -/
theorem session_first {out ans : List Bytes} {b : ProofBuilder} (h : Session dbg resolve name ty out ans b) :
    (ans = [] ∧ out = [queryBytes name ty]) ∨ ∃ more, ans = queryBytes name ty :: more := by
  induction h with
  | new => exact Or.inl ⟨rfl, rfl⟩
  | @respond before after answered more q b b' _ _ ih =>
    right
    rcases ih with ⟨rfl, h⟩ | ⟨rest, rfl⟩
    · have : q = queryBytes name ty := by
        have hq : q ∈ before ++ q :: after := by simp
        rw [h, List.mem_singleton] at hq
        exact hq
      exact ⟨[], by rw [this]; rfl⟩
    · exact ⟨rest ++ [q], rfl⟩

/-- The queries for the chain and the sets that answer them. -/
def chainQueries (w : World) : List (Bytes × SignedSet) :=
  (queryBytes rootName dnskeyType, w.root) ::
    w.zones.flatMap fun z => [(queryBytes z.keys.owner dnskeyType, z.keys), (queryBytes z.keys.owner dsType, z.ds)]

theorem chainQueries_snd (w : World) : (chainQueries w).map Prod.snd = w.root :: w.zones.flatMap fun z => [z.keys, z.ds] := by
  unfold chainQueries
  rw [List.map_cons, List.map_flatMap]
  rfl

theorem chainQueries_fst (hw : w.Signed p) : (chainQueries w).map Prod.fst = (zoneNames w).flatMap asks := by
  unfold chainQueries zoneNames
  rw [List.map_cons, List.map_flatMap, List.flatMap_cons, asks_root (k := rootName) rfl, List.flatMap_map]
  refine congrArg (List.cons _) ?_
  have : ∀ l : List Zone, (∀ z ∈ l, z ∈ w.zones) →
      (l.flatMap fun z => [(queryBytes z.keys.owner dnskeyType, z.keys), (queryBytes z.keys.owner dsType, z.ds)].map Prod.fst) =
      l.flatMap fun z => asks z.keys.owner := by
    intro l hl
    induction l with
    | nil => rfl
    | cons z l ih =>
      rw [List.flatMap_cons, List.flatMap_cons, ih fun y hy => hl y (by simp [hy]), asks_other (hw.notRoot (hl z (by simp)))]
      rfl
  exact this w.zones fun _ h => h

theorem chainQueries_gives (hr : Honest dbg w name ty resolve) {x : Bytes × SignedSet} (hx : x ∈ chainQueries w) :
    Gives dbg (resolve x.1) x.2.all := by
  unfold chainQueries at hx
  rcases List.mem_cons.mp hx with rfl | hx
  · exact gives_root hr
  · obtain ⟨z, hz, hx⟩ := List.mem_flatMap.mp hx
    rcases List.mem_cons.mp hx with rfl | hx
    · exact gives_keys hr hz
    · rw [List.mem_singleton] at hx
      subst hx
      exact gives_ds hr hz

theorem blocks_of : ∀ (qs : List (Bytes × SignedSet)) (recss : List (List (RR × UInt32))), recss.length = qs.length →
    (∀ x ∈ qs, Gives dbg (resolve x.1) x.2.all) →
    (∀ y ∈ ((qs.map Prod.fst).map resolve).zip recss, Contributes dbg y.1 y.2) → Blocks (qs.map Prod.snd) recss.flatten
  | [], [], _, _, _ => .nil
  | [], _ :: _, h, _, _ => nomatch h
  | _ :: _, [], h, _, _ => nomatch h
  | x :: qs, recs :: recss, hl, hg, hc => by
    obtain ⟨recs', h1, h2⟩ := hg x (by simp)
    have h3 := hc (resolve x.1, recs) (by simp)
    obtain rfl := contributes_unique h1 h3
    exact .cons h2 (blocks_of qs recss (by simpa using hl) (fun y hy => hg y (by simp [hy])) fun y hy =>
      hc y (by simp only [List.map_cons, List.zip_cons_cons]; exact List.mem_cons_of_mem _ hy))

theorem session_chain (hw : w.Signed p) (hr : Honest dbg w name ty resolve) {ans : List Bytes} {b : ProofBuilder}
    (h : Session dbg resolve name ty [] ans b) (hz : w.zones.length ≤ 4) :
    ∃ proof ttl first, b.finish = some (proof, ttl) ∧ Contributes dbg (resolve (queryBytes name ty)) first ∧
      AuthenticationChain w first proof := by
  obtain ⟨hp, hm, hm', qs, h1, h2, h3, h4, h5⟩ := session_count hw hr h hz
  rw [List.append_nil] at h2
  have hreq := (session_zones hw hr h (by omega) hp).2
  have hfin : b.finish = some (b.proof, b.minTtl) := by
    unfold ProofBuilder.finish
    rw [if_neg]
    simp only [List.length_nil] at hp
    simp only [maxRequests]
    omega
  obtain ⟨recss, hl, hcs, e⟩ := Props.C44_proof_contents_partial h1 hfin
  rcases session_first h with ⟨_, hq⟩ | ⟨more, rfl⟩
  · exact nomatch hq
  · cases recss with
    | nil => exact nomatch hl
    | cons first recss =>
      have hperm : more.Perm ((chainQueries w).map Prod.fst) := by
        rw [chainQueries_fst hw]
        rw [h4] at h2
        exact h2.cons_inv.symm.trans (hreq.flatMap_right _)
      obtain ⟨ps, hps, rfl⟩ := perm_map_lift hperm
      refine ⟨_, _, first, hfin, hcs (_, first) (by simp), ps.map Prod.snd, recss.flatten, ?_, ?_, ?_⟩
      · rw [← chainQueries_snd]; exact hps.map _
      · refine blocks_of ps recss (by simpa using hl) (fun x hx => chainQueries_gives hr (hps.mem_iff.mp hx)) fun y hy => hcs y ?_
        simp only [List.map_cons, List.zip_cons_cons]
        exact List.mem_cons_of_mem _ hy
      · rw [e]; rfl

end Dnssec
