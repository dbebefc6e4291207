import Verif.Spec.Resolve
import Verif.Proofs.Name
import Verif.Proofs.Suffix

/-! # `resolve_name` -/

namespace Dnssec

open Spec

variable {rrs : List RR} {n : Name}

theorem head?_filterMap_some {α β : Type} {f : α → Option β} : ∀ {l : List α} {b : β}, (l.filterMap f).head? = some b →
    ∃ before a after, l = before ++ a :: after ∧ f a = some b ∧ ∀ x ∈ before, f x = none
  | [], b, h => by simp at h
  | x :: xs, b, h => by
    cases hx : f x with
    | none =>
      rw [List.filterMap_cons_none hx] at h
      obtain ⟨before, a, after, e, h1, h2⟩ := head?_filterMap_some h
      refine ⟨x :: before, a, after, by rw [e]; rfl, h1, ?_⟩
      intro y hy
      rcases List.mem_cons.mp hy with rfl | hy
      · exact hx
      · exact h2 y hy
    | some v =>
      rw [List.filterMap_cons_some hx] at h
      simp only [List.head?_cons, Option.some.injEq] at h
      exact ⟨[], x, xs, rfl, by rw [hx, h], by simp⟩

theorem head?_filterMap_none {α β : Type} {f : α → Option β} {l : List α} : (l.filterMap f).head? = none ↔ ∀ a ∈ l, f a = none := by
  rw [List.head?_eq_none_iff, List.filterMap_eq_nil_iff]

theorem firstCname_some {c : CName} (h : firstCname rrs n = some c) : FirstWith rrs (CnameAt n) (.cname c) := by
  obtain ⟨before, a, after, e, h1, h2⟩ := head?_filterMap_some h
  cases a with
  | cname c' =>
    simp only at h1
    split at h1
    · rename_i hn
      simp only [Option.some.injEq] at h1
      subst h1
      refine ⟨before, after, e, ⟨c', rfl, hn⟩, ?_⟩
      rintro x hx ⟨c, rfl, hc⟩
      have := h2 _ hx
      simp [hc] at this
    · simp at h1
  | _ => simp at h1

theorem firstCname_none (h : firstCname rrs n = none) : ∀ r ∈ rrs, ¬ CnameAt n r := by
  rintro r hr ⟨c, rfl, hc⟩
  have := head?_filterMap_none.mp h _ hr
  simp [hc] at this

theorem firstDname_some {d : DName} (h : firstDname rrs n = some d) :
    FirstWith rrs (DnameFor n) (.dname d) ∧ endsWith n.bytes d.name.bytes = true := by
  obtain ⟨before, a, after, e, h1, h2⟩ := head?_filterMap_some h
  cases a with
  | dname c' =>
    simp only at h1
    split at h1
    · rename_i hn
      simp only [Option.some.injEq] at h1
      subst h1
      obtain ⟨pre, hp⟩ := (endsWith_iff _ _).mp hn
      refine ⟨⟨before, after, e, ⟨c', pre, rfl, hp⟩, ?_⟩, hn⟩
      rintro x hx ⟨c, pre, rfl, hc⟩
      have := h2 _ hx
      simp [(endsWith_iff _ _).mpr ⟨pre, hc⟩] at this
    · simp at h1
  | _ => simp at h1

theorem firstDname_none (h : firstDname rrs n = none) : ∀ r ∈ rrs, ¬ DnameFor n r := by
  rintro r hr ⟨c, pre, rfl, hc⟩
  have := head?_filterMap_none.mp h _ hr
  simp [(endsWith_iff _ _).mpr ⟨pre, hc⟩] at this

theorem stripSuffix_append (pre t : Bytes) : stripSuffix (pre ++ t) t = some pre := by
  unfold stripSuffix
  rw [if_pos ((endsWith_iff _ _).mpr ⟨pre, rfl⟩)]
  simp

theorem firstWith_unique {P : RR → Prop} {r r' : RR} (h : FirstWith rrs P r) (h' : FirstWith rrs P r') : r = r' := by
  obtain ⟨b, a, e, h1, h2⟩ := h
  obtain ⟨b', a', e', h1', h2'⟩ := h'
  rw [e] at e'
  rcases List.append_eq_append_iff.mp e' with ⟨x, hx, hy⟩ | ⟨x, hx, hy⟩
  · cases x with
    | nil => simp at hy; exact hy.1
    | cons y ys =>
      simp at hy
      exact absurd h1 (h2' r (by rw [hx]; simp [hy.1]))
  · cases x with
    | nil => simp at hy; exact hy.1.symm
    | cons y ys =>
      simp at hy
      exact absurd h1' (h2 r' (by rw [hx]; simp [hy.1]))

theorem firstWith_mem {P : RR → Prop} {r : RR} (h : FirstWith rrs P r) : r ∈ rrs ∧ P r := by
  obtain ⟨b, a, e, h1, _⟩ := h
  exact ⟨by rw [e]; simp, h1⟩

/-- The step relation, as computed. -/
inductive StepM (rrs : List RR) (n : Name) : Prop
  | alias (m : Name) : Alias rrs n m → (∀ fuel, resolveName rrs (fuel + 1) n = resolveName rrs fuel m) →
      resolveName rrs 0 n = none → StepM rrs n
  | final (l : List RR) : Final rrs n l → (∀ fuel, resolveName rrs fuel n = some (.ok l)) → StepM rrs n

theorem stepM (rrs : List RR) (n : Name) : StepM rrs n := by
  cases hc : firstCname rrs n with
  | some c =>
    refine .alias c.canonicalName (.cname c (firstCname_some hc)) (fun fuel => ?_) ?_
    · rw [resolveName, hc]
    · rw [resolveName, hc]
  | none =>
    have hc' := firstCname_none hc
    cases hd : firstDname rrs n with
    | none =>
      refine .final _ (.records hc' (firstDname_none hd)) (fun fuel => ?_)
      cases fuel <;> rw [resolveName, hc] <;> simp only [hd]
    | some d =>
      obtain ⟨h1, h2⟩ := firstDname_some hd
      obtain ⟨pre, hp⟩ := (endsWith_iff _ _).mp h2
      have hs : stripSuffix n.bytes d.name.bytes = some pre := by rw [hp, stripSuffix_append]
      cases ht : Name.tryFrom (pre ++ d.delegationName.bytes) with
      | none =>
        refine .final _ (.invalid d pre hc' h1 hp ((tryFrom_none _).mp ht)) (fun fuel => ?_)
        cases fuel <;> rw [resolveName, hc] <;> simp only [hd, hs, ht]
      | some m =>
        refine .alias m (.dname d pre m hc' h1 hp ((tryFrom_denotes _ _).mp ht)) (fun fuel => ?_) ?_
        · rw [resolveName, hc]; simp only [hd, hs, ht]
        · rw [resolveName, hc]; simp only [hd, hs, ht]

theorem alias_unique {m m' : Name} (h : Alias rrs n m) (h' : Alias rrs n m') : m = m' := by
  cases h with
  | cname c h1 =>
    cases h' with
    | cname c' h1' =>
      have := firstWith_unique h1 h1'
      simp only [RR.cname.injEq] at this
      rw [this]
    | dname d pre m hc _ _ _ =>
      obtain ⟨a, b⟩ := firstWith_mem h1
      exact absurd b (hc _ a)
  | dname d pre m hc h1 h2 h3 =>
    cases h' with
    | cname c' h1' =>
      obtain ⟨a, b⟩ := firstWith_mem h1'
      exact absurd b (hc _ a)
    | dname d' pre' m' hc' h1' h2' h3' =>
      have := firstWith_unique h1 h1'
      simp only [RR.dname.injEq] at this
      subst this
      have := List.append_cancel_right (h2.symm.trans h2')
      subst this
      rw [← tryFrom_denotes] at h3 h3'
      rw [h3] at h3'
      simpa using h3'

theorem alias_not_final {m : Name} {l : List RR} (h : Alias rrs n m) : ¬ Final rrs n l := by
  intro hf
  cases hf with
  | records h1 h2 =>
    cases h with
    | cname c h3 => exact h1 _ (firstWith_mem h3).1 (firstWith_mem h3).2
    | dname d pre m _ h3 _ _ => exact h2 _ (firstWith_mem h3).1 (firstWith_mem h3).2
  | invalid d pre h1 h2 h3 h4 =>
    cases h with
    | cname c h3 => exact h1 _ (firstWith_mem h3).1 (firstWith_mem h3).2
    | dname d' pre' m _ h2' h3' h4' =>
      have := firstWith_unique h2 h2'
      simp only [RR.dname.injEq] at this
      subst this
      have := List.append_cancel_right (h3.symm.trans h3')
      subst this
      exact h4 h4'.1

theorem chain_cons {m : Name} (h : Alias rrs n m) : ∀ {k : Nat} {m' : Name}, Chain rrs m k m' → Chain rrs n (k + 1) m'
  | 0, _, .nil => .snoc .nil h
  | _ + 1, _, .snoc hc ha => .snoc (chain_cons h hc) ha

theorem resolveName_some {r : Res Unit (List RR)} : ∀ {fuel : Nat} {n : Name}, resolveName rrs fuel n = some r →
    ∃ k m l, k ≤ fuel ∧ Chain rrs n k m ∧ Final rrs m l ∧ r = .ok l := by
  intro fuel
  induction fuel with
  | zero =>
    intro n h
    cases stepM rrs n with
    | alias m _ _ h0 => rw [h0] at h; simp at h
    | final l hf he =>
      rw [he] at h
      exact ⟨0, n, l, by omega, .nil, hf, by simpa using h.symm⟩
  | succ fuel ih =>
    intro n h
    cases stepM rrs n with
    | alias m ha he _ =>
      rw [he] at h
      obtain ⟨k, m', l, h1, h2, h3, h4⟩ := ih h
      exact ⟨k + 1, m', l, by omega, chain_cons ha h2, h3, h4⟩
    | final l hf he =>
      rw [he] at h
      exact ⟨0, n, l, by omega, .nil, hf, by simpa using h.symm⟩

/-- Following a chain costs one unit of fuel per redirection. -/
theorem resolveName_chain {k : Nat} {m : Name} (h : Chain rrs n k m) :
    (∀ fuel, resolveName rrs (fuel + k) n = resolveName rrs fuel m) ∧ (∀ fuel, fuel < k → resolveName rrs fuel n = none) := by
  induction h with
  | nil => exact ⟨fun _ => rfl, fun _ h => by omega⟩
  | @snoc k m m' hc ha ih =>
    cases stepM rrs m with
    | final l hf _ => exact absurd hf (alias_not_final ha)
    | alias m'' ha' he h0 =>
      have := alias_unique ha ha'
      subst this
      refine ⟨fun fuel => ?_, fun fuel hf => ?_⟩
      · have := ih.1 (fuel + 1)
        rw [he] at this
        rw [← this]
        congr 1
        omega
      · by_cases hk : fuel < k
        · exact ih.2 fuel hk
        · have := ih.1 0
          rw [h0] at this
          have e : fuel = 0 + k := by omega
          rw [e]; exact this

theorem resolveName_of_chain {k : Nat} {m : Name} {l : List RR} (h : Chain rrs n k m) (hf : Final rrs m l) (fuel : Nat)
    (hk : k ≤ fuel) : resolveName rrs fuel n = some (.ok l) := by
  have := (resolveName_chain h).1 (fuel - k)
  have e : fuel - k + k = fuel := by omega
  rw [e] at this
  rw [this]
  cases stepM rrs m with
  | alias m' ha _ _ => exact absurd hf (alias_not_final ha)
  | final l' hf' he =>
    rw [he]
    cases hf with
    | records h1 h2 =>
      cases hf' with
      | records _ _ => rfl
      | invalid d pre _ h3 _ _ => exact absurd (firstWith_mem h3).2 (h2 _ (firstWith_mem h3).1)
    | invalid d pre h1 h2 h3 h4 =>
      cases hf' with
      | records _ h5 => exact absurd (firstWith_mem h2).2 (h5 _ (firstWith_mem h2).1)
      | invalid _ _ _ _ _ _ => rfl

theorem chain_unique {k : Nat} {m m' : Name} (h : Chain rrs n k m) : Chain rrs n k m' → m = m' := by
  induction h generalizing m' with
  | nil => intro h'; cases h'; rfl
  | snoc hc ha ih =>
    intro h'
    cases h' with
    | snoc hc' ha' =>
      have := ih hc'
      subst this
      exact alias_unique ha ha'

theorem chain_add {j k : Nat} {m m' : Name} (h : Chain rrs n j m) (h' : Chain rrs m k m') : Chain rrs n (j + k) m' := by
  induction h' with
  | nil => exact h
  | snoc _ ha ih => exact .snoc ih ha

theorem chain_prefix {j : Nat} {m : Name} (h : Chain rrs n j m) : ∀ i ≤ j, ∃ m', Chain rrs n i m' := by
  induction h with
  | nil => intro i hi; exact ⟨n, by have : i = 0 := by omega
                                    subst this; exact .nil⟩
  | @snoc k m m' hc ha ih =>
    intro i hi
    by_cases h : i = k + 1
    · subst h; exact ⟨_, .snoc hc ha⟩
    · exact ih i (by omega)

/-- The chain goes on exactly until the function returns. -/
theorem none_iff_chain (fuel : Nat) (n : Name) : resolveName rrs fuel n = none ↔ ∃ m, Chain rrs n (fuel + 1) m := by
  constructor
  · intro h
    induction fuel generalizing n with
    | zero =>
      cases stepM rrs n with
      | alias m ha _ _ => exact ⟨m, .snoc .nil ha⟩
      | final l _ he => rw [he] at h; simp at h
    | succ fuel ih =>
      cases stepM rrs n with
      | alias m ha he _ =>
        rw [he] at h
        obtain ⟨m', hm⟩ := ih m h
        exact ⟨m', chain_cons ha hm⟩
      | final l _ he => rw [he] at h; simp at h
  · rintro ⟨m, h⟩
    exact (resolveName_chain h).2 fuel (by omega)

/-- A name visited twice is visited again and again. -/
theorem diverges_of_cycle {i j : Nat} {m : Name} (hij : i < j) (hi : Chain rrs n i m) (hj : Chain rrs n j m) (fuel : Nat) :
    resolveName rrs fuel n = none := by
  obtain ⟨d, hd, rfl⟩ : ∃ d, 0 < d ∧ j = i + d := ⟨j - i, by omega, by omega⟩
  have hloop : ∃ m', Chain rrs n (i + d * (fuel + 1)) m' ∧ m' = m := by
    have : ∀ t, Chain rrs n (i + d * t) m := by
      intro t
      induction t with
      | zero => exact hi
      | succ t ih =>
        -- the part of the chain from `m` to `m`
        have hmm : Chain rrs m d m := by
          have : ∀ d, ∀ m', Chain rrs n (i + d) m' → Chain rrs m d m' := by
            intro d
            induction d with
            | zero => intro m' h; rw [chain_unique h hi]; exact .nil
            | succ d ihd =>
              intro m' h
              cases h with
              | snoc hc ha => exact .snoc (ihd _ hc) ha
          exact this d m hj
        have := chain_add ih hmm
        rw [Nat.mul_succ]
        rw [Nat.add_assoc] at this
        exact this
    exact ⟨m, this (fuel + 1), rfl⟩
  obtain ⟨m', hc, _⟩ := hloop
  rw [none_iff_chain]
  apply chain_prefix hc
  have : fuel + 1 ≤ d * (fuel + 1) := Nat.le_mul_of_pos_left _ hd
  omega

/-! ### Finitely many names -/

/-- An injective coding of byte strings. -/
def code : Bytes → Nat
  | [] => 0
  | b :: bs => b.toNat + 1 + 257 * code bs

theorem code_injective : ∀ {a b : Bytes}, code a = code b → a = b
  | [], [], _ => rfl
  | [], b :: bs, h => by rw [code, code] at h; omega
  | a :: as, [], h => by rw [code, code] at h; omega
  | a :: as, b :: bs, h => by
    rw [code, code] at h
    have ha := a.toNat_lt
    have hb := b.toNat_lt
    have h1 : a.toNat = b.toNat := by omega
    have h2 : code as = code bs := by omega
    rw [code_injective h2, UInt8.toNat_inj.mp h1]

theorem code_lt : ∀ (a : Bytes) (L : Nat), a.length ≤ L → code a < 257 ^ L
  | [], L, _ => by rw [code]; exact Nat.pow_pos (by omega)
  | b :: bs, 0, h => by simp at h
  | b :: bs, L + 1, h => by
    have := code_lt bs L (by simpa using h)
    have hb := b.toNat_lt
    rw [code, Nat.pow_succ]
    omega

theorem nodup_bound : ∀ (N : Nat) (l : List Nat), l.Nodup → (∀ x ∈ l, x < N) → l.length ≤ N
  | 0, l, _, h => by
    cases l with
    | nil => simp
    | cons x xs => exact absurd (h x (by simp)) (by omega)
  | N + 1, l, hn, h => by
    have h1 := nodup_bound N (l.filter (fun x => decide (x ≠ N))) (hn.filter _) (by
      intro x hx
      obtain ⟨a, b⟩ := List.mem_filter.mp hx
      have := h x a
      have : x ≠ N := by simpa using b
      omega)
    have h2 : l.length ≤ (l.filter (fun x => decide (x ≠ N))).length + 1 := by
      clear h h1
      induction l with
      | nil => simp
      | cons x xs ih =>
        rw [List.nodup_cons] at hn
        by_cases hx : x = N
        · subst hx
          have : xs.filter (fun y => decide (y ≠ x)) = xs := by
            rw [List.filter_eq_self]
            intro a ha
            simp only [decide_eq_true_eq]
            rintro rfl
            exact hn.1 ha
          rw [List.filter_cons_of_neg (by simp), this]; simp
        · have := ih hn.2
          rw [List.filter_cons_of_pos (by simpa using hx)]
          simp only [List.length_cons]
          omega
    omega

/-- Names reached are valid if those in the records are. -/
theorem chain_short (hn : n.bytes.length ≤ 255) (hr : ∀ c, RR.cname c ∈ rrs → c.canonicalName.bytes.length ≤ 255) {k : Nat}
    {m : Name} (h : Chain rrs n k m) : m.bytes.length ≤ 255 := by
  cases h with
  | nil => exact hn
  | snoc hc ha =>
    cases ha with
    | cname c h1 => exact hr c (firstWith_mem h1).1
    | dname d pre m _ _ _ h4 =>
      obtain ⟨a, b⟩ := (tryFrom_iff _ _).mp ((tryFrom_denotes _ _).mpr h4)
      rw [b]
      simpa [lower] using a.short

theorem chain_list {f : Nat → Name} (h : ∀ i j : Nat, i < j → f i ≠ f j) (hs : ∀ i, (f i).bytes.length ≤ 255) : False := by
  have hcode : ∀ i j, code (f i).bytes = code (f j).bytes → i = j := by
    intro i j e
    have e' : f i = f j := by
      have := code_injective e
      cases hfi : f i; cases hfj : f j
      rw [hfi, hfj] at this
      simpa using this
    rcases Nat.lt_trichotomy i j with hlt | heq | hgt
    · exact absurd e' (h i j hlt)
    · exact heq
    · exact absurd e'.symm (h j i hgt)
  have := nodup_bound (257 ^ 255) ((List.range (257 ^ 255 + 1)).map fun i => code (f i).bytes) (by
    rw [List.nodup_iff_pairwise_ne, List.pairwise_map]
    exact List.nodup_range.imp (fun hne e => hne (hcode _ _ e))) (by
    intro x hx
    obtain ⟨i, _, rfl⟩ := List.mem_map.mp hx
    exact code_lt _ 255 (hs i))
  rw [List.length_map, List.length_range] at this
  omega

/-- With CNAMEs only, every redirection of a terminating run uses another record. -/
theorem chain_cnames (hd : ∀ d, RR.dname d ∉ rrs) (hret : ∃ fuel r, resolveName rrs fuel n = some r) {k : Nat} {m : Name}
    (h : Chain rrs n k m) : k ≤ rrs.length := by
  have key : ∀ {k : Nat} {m : Name}, Chain rrs n k m → ∃ ns : List Name, ns.length = k ∧ ns.Nodup ∧ ns ⊆ rrs.map RR.name ∧
      ∀ x ∈ ns, ∃ i, i < k ∧ Chain rrs n i x := by
    intro k m h
    induction h with
    | nil => exact ⟨[], rfl, by simp, by simp, by simp⟩
    | @snoc k m m' hc ha ih =>
      obtain ⟨ns, h1, h2, h3, h4⟩ := ih
      refine ⟨m :: ns, by simp [h1], ?_, ?_, ?_⟩
      · rw [List.nodup_cons]
        refine ⟨fun hm => ?_, h2⟩
        obtain ⟨i, hi, hci⟩ := h4 m hm
        obtain ⟨fuel, r, hr⟩ := hret
        rw [diverges_of_cycle hi hci hc fuel] at hr
        simp at hr
      · intro x hx
        rcases List.mem_cons.mp hx with rfl | hx
        · cases ha with
          | cname c hf =>
            obtain ⟨a, ⟨c', e, hn⟩⟩ := firstWith_mem hf
            obtain rfl := RR.cname.inj e
            exact List.mem_map.mpr ⟨_, a, hn⟩
          | dname d _ _ _ hf _ _ => exact absurd (firstWith_mem hf).1 (hd d)
        · exact h3 hx
      · intro x hx
        rcases List.mem_cons.mp hx with rfl | hx
        · exact ⟨k, by omega, hc⟩
        · obtain ⟨i, hi, hci⟩ := h4 x hx
          exact ⟨i, by omega, hci⟩
  obtain ⟨ns, h1, h2, h3, _⟩ := key h
  have := List.Nodup.length_le_of_subset h2 h3
  rw [h1, List.length_map] at this
  exact this

theorem returns_of_no_cycle (hn : n.bytes.length ≤ 255) (hr : ∀ c, RR.cname c ∈ rrs → c.canonicalName.bytes.length ≤ 255)
    (hno : ∀ i j m, i < j → Chain rrs n i m → ¬ Chain rrs n j m) : ∃ fuel r, resolveName rrs fuel n = some r := by
  refine Classical.byContradiction fun hc => ?_
  have hnone : ∀ fuel, resolveName rrs fuel n = none := by
    intro fuel
    cases h : resolveName rrs fuel n with
    | none => rfl
    | some r => exact absurd ⟨fuel, r, h⟩ hc
  have hch : ∀ i, ∃ m, Chain rrs n (i + 1) m := fun i => (none_iff_chain i n).mp (hnone i)
  exact chain_list (f := fun i => (hch i).choose)
    (fun i j hij e => hno (i + 1) (j + 1) _ (by omega) (hch i).choose_spec (by
      have := (hch j).choose_spec
      rw [← e] at this
      exact this))
    (fun i => chain_short hn hr (hch i).choose_spec)

/-! ### What a DNAME does to the labels -/

theorem text_fuse {above : List Bytes} {x z : Bytes} {zs : List Bytes} :
    text (above ++ (x ++ z) :: zs) = (dotted above ++ x) ++ text (z :: zs) := by
  rw [text_ne_nil (by simp), text_ne_nil (by simp)]
  simp [dotted]

theorem label_append_right {x z : Bytes} (h : Label (x ++ z)) : ∀ c ∈ x, 33 ≤ c.toNat ∧ c.toNat ≤ 126 ∧ c.toNat ≠ 34 ∧
    c.toNat ≠ 46 ∧ ¬ (65 ≤ c.toNat ∧ c.toNat ≤ 90) := fun c hc => h.chars c (by simp [hc])

/-- A text one of whose labels is too long is no name. -/
theorem tryFrom_long_label {a l b : Bytes} (hd : dot ∉ l) (h : 63 < l.length) : Name.tryFrom (a ++ l ++ b) = none := by
  cases ht : Name.tryFrom (a ++ l ++ b) with
  | none => rfl
  | some n =>
    have := ((tryFrom_iff _ _).mp ht).1.labels a l b rfl hd
    omega

theorem tryFrom_long {s : Bytes} (h : 255 < s.length) : Name.tryFrom s = none := by
  cases ht : Name.tryFrom s with
  | none => rfl
  | some n =>
    have := ((tryFrom_iff _ _).mp ht).1.short
    omega

end Dnssec
