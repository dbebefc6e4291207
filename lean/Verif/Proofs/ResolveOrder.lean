import Verif.Spec.ResolveOrder
import Verif.Proofs.Resolve

/-! # `resolve_name` and the order of the records -/

namespace Dnssec

open Spec

variable {rrs rrs' : List RR} {n : Name}

theorem firstWith_exists {P : RR → Prop} : ∀ {l : List RR}, (∃ r ∈ l, P r) → ∃ r, FirstWith l P r
  | [], h => by obtain ⟨_, h, _⟩ := h; simp at h
  | a :: l, h => by
    by_cases ha : P a
    · exact ⟨a, [], l, rfl, ha, by simp⟩
    · obtain ⟨r, hr, hp⟩ := h
      rcases List.mem_cons.mp hr with rfl | hr
      · exact absurd hp ha
      · obtain ⟨x, b, c, e, hx, hb⟩ := firstWith_exists ⟨r, hr, hp⟩
        refine ⟨x, a :: b, c, by rw [e]; rfl, hx, ?_⟩
        intro y hy
        rcases List.mem_cons.mp hy with rfl | hy
        · exact ha
        · exact hb y hy

theorem firstDname_transfer (hm : ∀ r, r ∈ rrs ↔ r ∈ rrs') (h1 : OneAlias rrs n) {d : DName}
    (hf : FirstWith rrs (DnameFor n) (.dname d)) : FirstWith rrs' (DnameFor n) (.dname d) := by
  obtain ⟨hmem, hP⟩ := firstWith_mem hf
  obtain ⟨r, hr⟩ := firstWith_exists (l := rrs') ⟨_, (hm _).mp hmem, hP⟩
  obtain ⟨hmem', hP'⟩ := firstWith_mem hr
  obtain ⟨d', pre', rfl, e'⟩ := hP'
  rw [h1.2 d d' hmem ((hm _).mpr hmem') hP ⟨d', pre', rfl, e'⟩]
  exact hr

theorem alias_transfer (hm : ∀ r, r ∈ rrs ↔ r ∈ rrs') (h1 : OneAlias rrs n) {m : Name} (h : Alias rrs n m) : Alias rrs' n m := by
  cases h with
  | cname c hf =>
    obtain ⟨hmem, hP⟩ := firstWith_mem hf
    obtain ⟨r, hr⟩ := firstWith_exists (l := rrs') ⟨_, (hm _).mp hmem, hP⟩
    obtain ⟨hmem', hP'⟩ := firstWith_mem hr
    obtain ⟨c', rfl, e'⟩ := hP'
    obtain ⟨c0, e0, hn⟩ := hP
    obtain rfl := RR.cname.inj e0
    rw [h1.1 c c' hmem ((hm _).mpr hmem') hn e']
    exact .cname c' hr
  | dname d pre m hc hf e hd => exact .dname d pre m (fun r hr => hc r ((hm r).mpr hr)) (firstDname_transfer hm h1 hf) e hd

theorem chain_transfer (hm : ∀ r, r ∈ rrs ↔ r ∈ rrs') (h1 : ∀ k m, Chain rrs n k m → OneAlias rrs m) {k : Nat} {m : Name}
    (h : Chain rrs n k m) : Chain rrs' n k m := by
  induction h with
  | nil => exact .nil
  | snoc hc ha ih => exact .snoc ih (alias_transfer hm (h1 _ _ hc) ha)

theorem final_transfer (hp : rrs.Perm rrs') (h1 : OneAlias rrs n) {l : List RR} (h : Final rrs n l) :
    ∃ l', Final rrs' n l' ∧ l.Perm l' := by
  have hm : ∀ r, r ∈ rrs ↔ r ∈ rrs' := fun r => hp.mem_iff
  cases h with
  | records hc hd => exact ⟨_, .records (fun r hr => hc r ((hm r).mpr hr)) (fun r hr => hd r ((hm r).mpr hr)), hp.filter _⟩
  | invalid d pre hc hf e hd =>
    exact ⟨[], .invalid d pre (fun r hr => hc r ((hm r).mpr hr)) (firstDname_transfer hm h1 hf) e hd, .refl _⟩

theorem resolveName_perm (hp : rrs.Perm rrs') (h1 : ∀ k m, Chain rrs n k m → OneAlias rrs m) {fuel : Nat} {l : List RR}
    (h : resolveName rrs fuel n = some (.ok l)) : ∃ l', resolveName rrs' fuel n = some (.ok l') ∧ l.Perm l' := by
  obtain ⟨k, m, l0, hk, hc, hf, e⟩ := resolveName_some h
  obtain rfl := Res.ok.inj e
  obtain ⟨l', hf', hl⟩ := final_transfer hp (h1 k m hc) hf
  exact ⟨l', resolveName_of_chain (chain_transfer (fun r => hp.mem_iff) h1 hc) hf' fuel hk, hl⟩

theorem resolveName_perm_none (hm : ∀ r, r ∈ rrs ↔ r ∈ rrs') (h1 : ∀ k m, Chain rrs n k m → OneAlias rrs m) {fuel : Nat}
    (h : resolveName rrs fuel n = none) : resolveName rrs' fuel n = none := by
  rw [none_iff_chain] at h ⊢
  obtain ⟨m, h⟩ := h
  exact ⟨m, chain_transfer hm h1 h⟩

end Dnssec
