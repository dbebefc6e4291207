import Verif.Proofs.Crypto
import Verif.Proofs.Closed
import Verif.Proofs.AnyOrder
import Verif.Spec.Once

/-! # If each zone has one parent, no zone is looked at twice -/

namespace Dnssec

open Spec

variable {dbg : Bool} {p : Platform} {inp : List RR}

/-! ### Names are not pushed twice -/

theorem acceptSig_nodup {sig : RRSig} {st st' : VState} (h : acceptSig dbg inp sig st = .ok st') (hn : (st.pending.map Prod.fst).Nodup) :
    (st'.pending.map Prod.fst).Nodup := by
  unfold acceptSig at h
  split at h
  · cases h
  · split at h
    · split at h
      · cases h; exact hn
      · rename_i ha
        cases h
        rw [List.map_cons, List.nodup_cons]
        refine ⟨fun hm => ha ?_, hn⟩
        obtain ⟨e, he, e1⟩ := List.mem_map.mp hm
        rw [List.any_eq_true]
        exact ⟨e, he, by simp only at e1; simp [e1]⟩
    · simp only at h
      split at h
      · split at h
        · cases h
        · obtain ⟨l1, _, h⟩ := Res.bind_ok_iff.mp h
          split at h
          · cases h
          · cases h; exact hn
      · cases h; exact hn

theorem sigLoop_nodup (zone : Bytes) : ∀ {sigs : List RRSig} {st st' : VState}, sigLoop dbg p inp zone sigs st = .ok st' →
    (st.pending.map Prod.fst).Nodup → (st'.pending.map Prod.fst).Nodup
  | [], st, st', h, hn => by cases h; exact hn
  | sig :: sigs, st, st', h, hn => by
    rw [sigLoop] at h
    split at h
    · cases h
    · split at h
      · exact sigLoop_nodup zone h hn
      · cases h
      · cases h
      · obtain ⟨st1, h1, h2⟩ := Res.bind_ok_iff.mp h
        exact sigLoop_nodup zone h2 (acceptSig_nodup h1 hn)

theorem doZone_nodup {zone : Bytes} {dses : List DS} {st st' : VState} (h : doZone dbg p inp zone dses st = .ok st')
    (hn : (st.pending.map Prod.fst).Nodup) : (st'.pending.map Prod.fst).Nodup := by
  rw [doZone] at h
  obtain ⟨sig, _, h⟩ := Res.bind_ok_iff.mp h
  exact sigLoop_nodup zone h hn

/-! ### The invariant -/

/-- `y` is the root or has been delegated to by one of the zones `P`. -/
def ChildOf (p : Platform) (inp : List RR) (P : List Name) (y : Name) : Prop :=
  y = rootName ∨ ∃ z ∈ P, ∃ s, SignedBy (codeCheck p) inp z s ∧ s.ty = dsType ∧ s.name = y

theorem ChildOf.cons {P : List Name} {y z : Name} (h : ChildOf p inp P y) : ChildOf p inp (z :: P) y := by
  rcases h with h | ⟨z', hz, h⟩
  · exact Or.inl h
  · exact Or.inr ⟨z', List.mem_cons_of_mem _ hz, h⟩

/-- The zones `P` have been looked at; none of them, nor any that is waiting, appears twice. -/
structure Tree (dbg : Bool) (p : Platform) (inp : List RR) (P : List Name) (zone : Bytes) (st : VState) : Prop where
  inv : Inv dbg p inp P st
  nodup : (P ++ st.pending.map Prod.fst).Nodup
  parent : ∀ y ∈ P ++ st.pending.map Prod.fst, ChildOf p inp P y
  nonempty : ∀ y ∈ P ++ st.pending.map Prod.fst, y.bytes ≠ []
  start : (P = [] ∧ st.pending = [] ∧ zone = [dot]) ∨ (rootName ∈ P ∧ (zone ≠ [dot] ∨ st.pending ≠ []))

theorem Tree.init (dbg : Bool) (p : Platform) (inp : List RR) : Tree dbg p inp [] [dot] VState.init :=
  ⟨Inv.init dbg p inp, by simp [VState.init], by simp [VState.init], by simp [VState.init], Or.inl ⟨rfl, rfl, rfl⟩⟩

theorem Tree.next {P : List Name} {zone : Bytes} {st : VState} (hroot : RootDelegates (codeCheck p) inp)
    (hno : ¬ SelfDelegation (codeCheck p) p inp) (hone : OneParent (codeCheck p) p inp) (hT : Tree dbg p inp P zone st)
    (hc : zone = [dot] ∨ st.pending ≠ []) :
    ∃ z : Name, (nextZone zone st).1 = z.bytes ∧ z ∉ P ∧ Reached (codeCheck p) p inp z ∧
      (z ≠ rootName → (nextZone zone st).2.1 = dsAt inp z) ∧ (nextZone zone st).2.2.needs = st.needs ∧
      ∀ st1, doZone dbg p inp z.bytes (nextZone zone st).2.1 (nextZone zone st).2.2 = .ok st1 → Tree dbg p inp (z :: P) z.bytes st1 := by
  obtain ⟨z, e1, hz, hds, hn, hnext⟩ := hT.inv.next hc
  -- what is left after taking `z`
  have facts : (z :: (P ++ (nextZone zone st).2.2.pending.map Prod.fst)).Nodup ∧
      (∀ y ∈ z :: (P ++ (nextZone zone st).2.2.pending.map Prod.fst), ChildOf p inp P y ∧ y.bytes ≠ []) ∧
      (z = rootName ∨ rootName ∈ P) := by
    rcases hT.start with ⟨h1, h2, h3⟩ | ⟨h1, h2⟩
    · have e : nextZone zone st = ([dot], [], st) := by rw [nextZone, h2, h3]
      rw [e] at e1 ⊢
      have hzr : z = rootName := ((Name.ext_iff' _ _).mp e1.symm)
      subst hzr
      simp only [h1, h2, List.map_nil, List.append_nil]
      refine ⟨by simp, ?_, Or.inl trivial⟩
      intro y hy
      rw [List.mem_singleton] at hy
      subst hy
      exact ⟨Or.inl rfl, by decide⟩
    · cases hp : st.pending with
      | nil =>
        rcases h2 with h2 | h2
        · rcases hc with hc | hc
          · exact absurd hc h2
          · exact absurd hp hc
        · exact absurd hp h2
      | cons x rest =>
        obtain ⟨z', ds⟩ := x
        have e : nextZone zone st = (z'.bytes, ds, { st with pending := rest }) := by rw [nextZone, hp]
        rw [e] at e1 ⊢
        have hzr : z' = z := ((Name.ext_iff' _ _).mp e1)
        subst hzr
        have hperm : (P ++ st.pending.map Prod.fst).Perm (z' :: (P ++ rest.map Prod.fst)) := by
          rw [hp, List.map_cons]
          exact List.perm_middle
        refine ⟨hperm.nodup_iff.mp hT.nodup, ?_, Or.inr h1⟩
        intro y hy
        have hy' := hperm.mem_iff.mpr hy
        exact ⟨hT.parent y hy', hT.nonempty y hy'⟩
  obtain ⟨f1, f2, f3⟩ := facts
  obtain ⟨f11, f12⟩ := List.nodup_cons.mp f1
  rw [List.mem_append, not_or] at f11
  obtain ⟨f121, f122, f123⟩ := List.nodup_append.mp f12
  refine ⟨z, e1, f11.1, hz, hds, hn, fun st1 hd => ?_⟩
  have hI := hnext st1 hd
  obtain ⟨_, new, i1, _, i3, i4⟩ := doZone_pending hds hd
  have hnd := doZone_nodup hd f122
  rw [i1, List.map_append] at hnd
  obtain ⟨g1, _, g3⟩ := List.nodup_append.mp hnd
  have hpz : ∀ y ∈ z :: P, Reached (codeCheck p) p inp y := hI.reached
  -- a new name is new
  have hfresh : ∀ y ∈ new.map Prod.fst, y ∉ z :: P ∧ ChildOf p inp (z :: P) y ∧ y.bytes ≠ [] := by
    intro y hy
    obtain ⟨e, he, rfl⟩ := List.mem_map.mp hy
    obtain ⟨s, hs, ht, rfl, hsuf⟩ := i3 e he
    simp only
    have hself : s.name ≠ z := fun h => hno ⟨z, hz, s, hs, ht, h⟩
    have hlen := length_of_endsWith hsuf hself
    refine ⟨fun hm => ?_, Or.inr ⟨z, List.mem_cons_self, s, hs, ht, rfl⟩, fun h => by rw [h] at hlen; exact absurd hlen (Nat.not_lt_zero _)⟩
    rcases List.mem_cons.mp hm with h | h
    · exact hself h
    · rcases (f2 s.name (List.mem_cons_of_mem _ (List.mem_append_left _ h))).1 with h' | ⟨z', hz', s', hs', ht', hn'⟩
      · have h0 := (f2 z List.mem_cons_self).2
        rw [h'] at hlen
        have : rootName.bytes.length = 1 := rfl
        exact h0 (List.length_eq_zero_iff.mp (by omega))
      · have := hone z' z s' s (hpz z' (List.mem_cons_of_mem _ hz')) hz hs' hs ht' ht hn'
        exact f11.1 (this ▸ hz')
  have hmem : ∀ y ∈ z :: P ++ st1.pending.map Prod.fst, y ∈ z :: (P ++ (nextZone zone st).2.2.pending.map Prod.fst) ∨
      y ∈ new.map Prod.fst := by
    intro y hy
    rw [i1, List.map_append, List.mem_append, List.mem_append] at hy
    rw [← List.cons_append, List.mem_append]
    rcases hy with hy | hy | hy
    · exact Or.inl (Or.inl hy)
    · exact Or.inr hy
    · exact Or.inl (Or.inr hy)
  refine ⟨hI, ?_, ?_, ?_, Or.inr ⟨?_, ?_⟩⟩
  · rw [i1, List.map_append]
    refine List.nodup_append.mpr ⟨List.nodup_cons.mpr ⟨f11.1, f121⟩, hnd, ?_⟩
    intro a ha b hb e
    subst e
    rcases List.mem_append.mp hb with hb | hb
    · exact (hfresh a hb).1 ha
    · rcases List.mem_cons.mp ha with rfl | ha
      · exact f11.2 hb
      · exact f123 a ha a hb rfl
  · intro y hy
    rcases hmem y hy with h | h
    · exact (f2 y h).1.cons
    · exact (hfresh y h).2.1
  · intro y hy
    rcases hmem y hy with h | h
    · exact (f2 y h).2
    · exact (hfresh y h).2.2
  · rcases f3 with f3 | f3
    · rw [f3]; exact List.mem_cons_self
    · exact List.mem_cons_of_mem _ f3
  · by_cases hzr : z.bytes = [dot]
    · have hz' : z = rootName := (Name.ext_iff' _ _).mp hzr
      obtain ⟨s, a, b⟩ := hroot
      obtain ⟨e, he, _⟩ := i4 s (hz' ▸ a) b
      exact Or.inr (List.ne_nil_of_mem he)
    · exact Or.inl hzr

/-! ### The number of visits -/

/-- The names with a signed DS set. -/
def dsOwners (inp : List RR) : List Name := inp.filterMap fun | .rrsig s => if s.ty = 43 then some s.name else none | _ => none

theorem dsOwners_length : ∀ inp : List RR, (dsOwners inp).length = delegationCount inp
  | [] => rfl
  | r :: inp => by
    have ih := dsOwners_length inp
    unfold dsOwners delegationCount at *
    rw [List.countP_cons, List.filterMap_cons]
    cases r with
    | rrsig s => by_cases h : s.ty = 43 <;> simp [h, ih]
    | _ => simpa using ih

theorem mem_dsOwners {s : RRSig} (h : RR.rrsig s ∈ inp) (ht : s.ty = 43) : s.name ∈ dsOwners inp :=
  List.mem_filterMap.mpr ⟨_, h, by simp [ht]⟩

theorem nodup_length_le {a : List Name} : ∀ {b : List Name}, a.Nodup → (∀ x ∈ a, x ∈ b) → a.length ≤ b.length := by
  induction a with
  | nil => intros; exact Nat.zero_le _
  | cons x a ih =>
    intro b ha h
    obtain ⟨h1, h2⟩ := List.nodup_cons.mp ha
    have hx := h x List.mem_cons_self
    have := ih (b := b.erase x) h2 fun y hy => (List.mem_erase_of_ne (by rintro rfl; exact h1 hy)).mpr (h y (List.mem_cons_of_mem _ hy))
    rw [List.length_erase_of_mem hx] at this
    have : 0 < b.length := List.length_pos_of_mem hx
    simp only [List.length_cons]
    omega

theorem Tree.length_le {P : List Name} {zone : Bytes} {st : VState} (hT : Tree dbg p inp P zone st) :
    P.length + st.pending.length ≤ delegationCount inp + 1 := by
  have := nodup_length_le (b := rootName :: dsOwners inp) hT.nodup fun y hy => by
    rcases hT.parent y hy with h | ⟨z, _, s, hs, ht, rfl⟩
    · rw [h]; exact List.mem_cons_self
    · exact List.mem_cons_of_mem _ (mem_dsOwners (mem_sigsBy.mp hs.1).1 ht)
  simpa [dsOwners_length] using this

theorem zoneLoop_once (hroot : RootDelegates (codeCheck p) inp) (hno : ¬ SelfDelegation (codeCheck p) p inp)
    (hone : OneParent (codeCheck p) p inp) : ∀ (fuel : Nat) {zone : Bytes} {st : VState} {P : List Name},
    Tree dbg p inp P zone st → delegationCount inp + 1 ≤ fuel + P.length → (zoneLoopE dbg p inp fuel zone st).res ≠ none
  | 0, zone, st, P, hT, hf => by
    have h1 := hT.length_le
    have hp : st.pending = [] := List.length_eq_zero_iff.mp (by omega)
    rcases hT.start with ⟨h2, _, _⟩ | ⟨_, h2⟩
    · rw [h2] at hf; simp at hf
    · have hz : zone ≠ [dot] := h2.elim id fun h => absurd hp h
      rw [zoneLoopE, if_neg (by simp [hz, hp])]
      simp
  | fuel + 1, zone, st, P, hT, hf => by
    by_cases hc : zone = [dot] ∨ st.pending ≠ []
    · obtain ⟨z, e1, _, hz, hds, hn, hnext⟩ := hT.next hroot hno hone hc
      rw [zoneLoopE_succ fuel hc, e1]
      split
      · rename_i st1 h
        exact zoneLoop_once hroot hno hone fuel (hnext st1 (by rw [← doZoneE_res]; exact h)) (by simp only [List.length_cons]; omega)
      · simp
      · simp
    · rw [zoneLoopE, if_neg hc]
      simp

/-! ### The work -/

/-- The zone for which a signature is looked at. -/
def zoneOf (s : RRSig) : Name := if s.ty = 48 then s.name else s.keyName

/-- The signatures and keys of zones that satisfy `q`. -/
def sigsIn (inp : List RR) (q : Name → Bool) : List RRSig := (rrsigs inp).filter fun s => q (zoneOf s)
def keysIn (inp : List RR) (q : Name → Bool) : Nat := inp.countP fun | .dnskey k => q k.name | _ => false

theorem filter_split {α : Type} (q r t : α → Bool) (h : ∀ a, t a = (q a || r a)) (hd : ∀ a, q a = true → r a = false) : ∀ l : List α,
    (l.filter q).length + (l.filter r).length = (l.filter t).length
  | [] => rfl
  | a :: l => by
    have ih := filter_split q r t h hd l
    have h1 := h a
    have h2 := hd a
    rw [List.filter_cons, List.filter_cons, List.filter_cons]
    cases hq : q a <;> cases hr : r a <;> rw [hq, hr] at h1 <;> simp_all <;> omega

theorem filter_split_count {α : Type} [BEq α] [LawfulBEq α] (q r t : α → Bool) (h : ∀ a, t a = (q a || r a))
    (hd : ∀ a, q a = true → r a = false) (x : α) (l : List α) : (l.filter q).count x + (l.filter r).count x = (l.filter t).count x := by
  have key : ∀ f : α → Bool, (l.filter f).count x = if f x then l.count x else 0 := by
    intro f
    cases hf : f x
    · exact List.count_eq_zero.mpr fun hm => by rw [List.mem_filter, hf] at hm; exact Bool.false_ne_true hm.2
    · exact List.count_filter hf
  rw [key, key, key, h]
  have := hd x
  cases hq : q x <;> cases hr : r x <;> simp_all

/-- The work of the zones that satisfy `q`. -/
structure WorkIn (inp : List RR) (q : Name → Bool) (ops : List CryptoOp) : Prop where
  checks : signatureChecks ops ≤ (sigsIn inp q).length
  each : ∀ s, checksOf s ops ≤ (sigsIn inp q).count s
  digests : keyDigests ops ≤ keysIn inp q * max 2 (dsCount inp)
  hashes : nsec3Hashes ops = 0

theorem WorkIn.nil (q : Name → Bool) : WorkIn inp q [] := ⟨Nat.zero_le _, fun _ => Nat.zero_le _, Nat.zero_le _, rfl⟩

theorem countP_split {α : Type} (q r t : α → Bool) (h : ∀ a, t a = (q a || r a)) (hd : ∀ a, q a = true → r a = false) (l : List α) :
    l.countP q + l.countP r = l.countP t := by
  have := filter_split q r t h hd l
  rw [List.countP_eq_length_filter, List.countP_eq_length_filter, List.countP_eq_length_filter]
  exact this

theorem WorkIn.append {q r t : Name → Bool} (h : ∀ a, t a = (q a || r a)) (hd : ∀ a, q a = true → r a = false) {a b : List CryptoOp}
    (ha : WorkIn inp q a) (hb : WorkIn inp r b) : WorkIn inp t (a ++ b) := by
  refine ⟨?_, fun s => ?_, ?_, ?_⟩
  · rw [signatureChecks_append]
    have := filter_split (fun s => q (zoneOf s)) (fun s => r (zoneOf s)) (fun s => t (zoneOf s)) (fun s => h _) (fun s => hd _) (rrsigs inp)
    have h1 := ha.checks
    have h2 := hb.checks
    unfold sigsIn at *
    omega
  · rw [checksOf_append]
    have := filter_split_count (fun s => q (zoneOf s)) (fun s => r (zoneOf s)) (fun s => t (zoneOf s)) (fun s => h _) (fun s => hd _) s
      (rrsigs inp)
    have h1 := ha.each s
    have h2 := hb.each s
    unfold sigsIn at *
    omega
  · rw [keyDigests, List.countP_append]
    have e : keysIn inp q + keysIn inp r = keysIn inp t := by
      refine countP_split _ _ _ (fun x => ?_) (fun x hx => ?_) inp
      · cases x <;> simp [h]
      · cases x <;> simp_all
    rw [← e, Nat.add_mul]
    exact Nat.add_le_add ha.digests hb.digests
  · rw [nsec3Hashes, List.countP_append]
    have h1 := ha.hashes
    have h2 := hb.hashes
    unfold nsec3Hashes at h1 h2
    rw [h1, h2]

theorem keysAt_keysIn (z : Name) : ∀ inp : List RR, (keysAt inp z).length = keysIn inp (fun y => y = z)
  | [] => rfl
  | r :: inp => by
    have ih := keysAt_keysIn z inp
    unfold keysAt keysIn at *
    rw [List.countP_cons, List.filterMap_cons]
    cases r with
    | dnskey k => by_cases h : k.name = z <;> simp [h, ih]
    | _ => simpa using ih

theorem zoneSigs_split (z : Name) : (dnskeyRrsigs inp z.bytes).length + (zoneRrsigs inp z.bytes).length = (sigsIn inp (fun y => y = z)).length ∧
    ∀ s, (dnskeyRrsigs inp z.bytes).count s + (zoneRrsigs inp z.bytes).count s = (sigsIn inp (fun y => y = z)).count s := by
  have h : ∀ s : RRSig, decide (zoneOf s = z) =
      ((s.name.bytes == z.bytes && s.ty == dnskeyType) || (s.keyName.bytes == z.bytes && s.ty != dnskeyType)) := by
    intro s
    have e : dnskeyType = 48 := rfl
    have hb : ∀ y : Name, (y.bytes == z.bytes) = decide (y = z) := by
      intro y
      rw [Bool.eq_iff_iff]
      simp [Name.ext_iff']
    rw [hb, hb, e, zoneOf]
    by_cases ht : s.ty = 48
    · simp [ht]
    · have h1 : (s.ty == 48) = false := by simpa using ht
      have h2 : (s.ty != 48) = true := by simpa using ht
      simp [ht, h1, h2]
  have hd : ∀ s : RRSig, (s.name.bytes == z.bytes && s.ty == dnskeyType) = true → (s.keyName.bytes == z.bytes && s.ty != dnskeyType) = false := by
    intro s h; simp only [Bool.and_eq_true, beq_iff_eq] at h; simp [h.2]
  exact ⟨filter_split _ _ _ h hd (rrsigs inp), fun s => filter_split_count _ _ _ h hd s (rrsigs inp)⟩

theorem doZoneE_workIn {z : Name} {dses : List DS} {st : VState} (hds : z ≠ rootName → dses = dsAt inp z) :
    WorkIn inp (fun y => y = z) (doZoneE dbg p inp z.bytes dses st).ops ∧
    ∀ st', (doZoneE dbg p inp z.bytes dses st).res = .ok st' →
      st'.needs.length ≤ st.needs.length + (sigsIn inp (fun y => y = z)).length := by
  have ha : (if z.bytes = [dot] then rootHints else dses) = anchors inp z := by
    unfold anchors
    by_cases h : z = rootName
    · rw [if_pos h, if_pos (by rw [h]; rfl), rootHints_iana]
    · rw [if_neg h, if_neg (fun h' : z.bytes = [dot] => h ((Name.ext_iff' z rootName).mp h')), hds h]
  obtain ⟨hlen, hcnt⟩ := zoneSigs_split (inp := inp) z
  have hres := doZoneE_res (dbg := dbg) (p := p) (inp := inp) z.bytes dses st
  constructor
  · obtain ⟨a, b, e, h1, h2, h3⟩ :=
      verifyDnskeysE_ops (p := p) (dnskeyRrsigs inp z.bytes) (anchors inp z) (zoneKeys inp z.bytes)
    have key : ∃ c, (doZoneE dbg p inp z.bytes dses st).ops = a ++ (b ++ c) ∧
        Checks (zoneRrsigs inp z.bytes) (zoneKeys inp z.bytes) c := by
      rw [doZoneE]
      simp only [ha]
      split
      · exact ⟨_, by rw [e, List.append_assoc], sigLoopE_checks _ _ _⟩
      · exact ⟨[], by rw [e, List.append_nil], Checks.nil _ _⟩
      · exact ⟨[], by rw [e, List.append_nil], Checks.nil _ _⟩
    obtain ⟨c, e', h4⟩ := key
    obtain ⟨a1, a2, a3⟩ := digests_checks (ops := a) fun op ho => by
      obtain ⟨k, _, d, _, h, _⟩ := h2 op ho; exact ⟨k, d, h⟩
    obtain ⟨b1, b2⟩ := h3.digests
    obtain ⟨c1, c2⟩ := h4.digests
    rw [e']
    refine ⟨?_, fun s => ?_, ?_, ?_⟩
    · rw [signatureChecks, List.countP_append, List.countP_append]
      have hb : signatureChecks b ≤ b.length := List.countP_le_length
      have hc : signatureChecks c ≤ c.length := List.countP_le_length
      have := h3.length
      have := h4.length
      unfold signatureChecks at *
      omega
    · rw [checksOf, List.countP_append, List.countP_append]
      have := h3.each s
      have := h4.each s
      have := a2 s
      have := hcnt s
      unfold checksOf at *
      omega
    · rw [keyDigests, List.countP_append, List.countP_append]
      have ha' : keyDigests a ≤ a.length := List.countP_le_length
      have : (zoneKeys inp z.bytes).length * (anchors inp z).length ≤ keysIn inp (fun y => y = z) * max 2 (dsCount inp) := by
        rw [zoneKeys_eq, ← keysAt_keysIn]
        exact Nat.mul_le_mul (Nat.le_refl _) (anchors_length inp z)
      unfold keyDigests at *
      omega
    · rw [nsec3Hashes, List.countP_append, List.countP_append]
      unfold nsec3Hashes at *
      omega
  · intro st' h
    rw [hres, doZone] at h
    obtain ⟨sig, _, h⟩ := Res.bind_ok_iff.mp h
    have := sigLoop_needs z.bytes h
    have e : (st.note sig).needs = st.needs := rfl
    rw [e] at this
    omega

theorem WorkIn.mono {q t : Name → Bool} (h : ∀ a, q a = true → t a = true) {ops : List CryptoOp} (hw : WorkIn inp q ops) : WorkIn inp t ops := by
  have := hw.append (r := fun a => t a && !q a) (t := t) (b := [])
    (fun a => by have := h a; cases hq : q a <;> cases ht : t a <;> simp_all) (fun a ha => by simp [ha]) (WorkIn.nil _)
  rwa [List.append_nil] at this

theorem zoneLoopE_workIn (hroot : RootDelegates (codeCheck p) inp) (hno : ¬ SelfDelegation (codeCheck p) p inp)
    (hone : OneParent (codeCheck p) p inp) : ∀ (fuel : Nat) {zone : Bytes} {st : VState} {P : List Name}, Tree dbg p inp P zone st →
    WorkIn inp (fun y => y ∉ P) (zoneLoopE dbg p inp fuel zone st).ops ∧
    ∀ st', (zoneLoopE dbg p inp fuel zone st).res = some (.ok st') →
      st'.needs.length ≤ st.needs.length + (sigsIn inp (fun y => y ∉ P)).length
  | 0, zone, st, P, hT => by
    rw [zoneLoopE]
    split
    · exact ⟨WorkIn.nil _, fun st' h => by cases h⟩
    · exact ⟨WorkIn.nil _, fun st' h => by cases h; exact Nat.le_add_right _ _⟩
  | fuel + 1, zone, st, P, hT => by
    by_cases hc : zone = [dot] ∨ st.pending ≠ []
    · obtain ⟨z, e1, hzP, hz, hds, hn, hnext⟩ := hT.next hroot hno hone hc
      rw [zoneLoopE_succ fuel hc, e1]
      obtain ⟨h1, h2⟩ := doZoneE_workIn (dbg := dbg) (p := p) (st := (nextZone zone st).2.2) hds
      have hsplit : ∀ a : Name, decide (a ∉ P) = (decide (a = z) || decide (a ∉ z :: P)) := by
        intro a
        by_cases h : a = z
        · subst h; simp [hzP]
        · simp [h]
      have hdis : ∀ a : Name, decide (a = z) = true → decide (a ∉ z :: P) = false := by
        intro a h; simp at h; simp [h]
      have hle : ∀ a : Name, decide (a = z) = true → decide (a ∉ P) = true := by
        intro a h; simp at h; simp [h, hzP]
      split
      · rename_i st1 h
        obtain ⟨i1, i2⟩ := zoneLoopE_workIn hroot hno hone fuel (hnext st1 (by rw [← doZoneE_res]; exact h))
        refine ⟨WorkIn.append hsplit hdis h1 i1, fun st' hs => ?_⟩
        have := i2 st' hs
        have := h2 st1 h
        have := filter_split (fun s => decide (zoneOf s = z)) (fun s => decide (zoneOf s ∉ z :: P)) (fun s => decide (zoneOf s ∉ P))
          (fun s => hsplit _) (fun s => hdis _) (rrsigs inp)
        rw [hn] at *
        simp only [sigsIn] at *
        omega
      · exact ⟨h1.mono hle, fun st' hs => by cases hs⟩
      · exact ⟨h1.mono hle, fun st' hs => by cases hs⟩
    · rw [zoneLoopE, if_neg hc]
      exact ⟨WorkIn.nil _, fun st' h => by cases h; exact Nat.le_add_right _ _⟩

/-- Signers named in the input: if all RRSIGs over DS sets of one name have the same signer, each zone has one parent. -/
theorem OneParent.of_signers {S : SigCheck} (h : ∀ s s', RR.rrsig s ∈ inp → RR.rrsig s' ∈ inp → s.ty = 43 → s'.ty = 43 →
    s.name = s'.name → s.keyName = s'.keyName) : OneParent S p inp := by
  intro z z' s s' _ _ hs hs' ht ht' hn
  obtain ⟨a, b, _⟩ := mem_sigsBy.mp hs.1
  obtain ⟨a', b', _⟩ := mem_sigsBy.mp hs'.1
  rw [← b, ← b']
  exact h s s' a a' ht ht' hn

end Dnssec
