import Verif.Proofs.Resolve
import Verif.Proofs.Example

/-! # C33–C35: `resolve_name`

`resolveName rrs fuel n` models `VerifiedRRStream::resolve_name` over the verified records `rrs`, following at most `fuel`
redirections; `none` means that it has not returned by then. -/

namespace Dnssec.Props

open Dnssec Spec

variable {rrs : List RR} {n : Name}

/-- Records for the examples: a CNAME and a DNAME. -/
def wCname (n t : String) : RR := .cname ⟨⟨ascii n⟩, ⟨ascii t⟩⟩
/-- A DNAME. -/
def wDname (n t : String) : RR := .dname ⟨⟨ascii n⟩, ⟨ascii t⟩⟩

/-! ## C33 -/

/-- **C33.** `resolve_name` returns `l` iff a chain of CNAME/DNAME steps leads from the name to one without further alias and `l`
is the list of exactly the records there (or it ends with a DNAME giving an invalid name, and `l` is empty); it never panics. -/
theorem C33_returns_iff (r : Res Unit (List RR)) :
    (∃ fuel, resolveName rrs fuel n = some r) ↔ ∃ k m l, Chain rrs n k m ∧ Final rrs m l ∧ r = .ok l := by
  constructor
  · rintro ⟨fuel, h⟩
    obtain ⟨k, m, l, _, h1, h2, h3⟩ := resolveName_some h
    exact ⟨k, m, l, h1, h2, h3⟩
  · rintro ⟨k, m, l, h1, h2, rfl⟩
    exact ⟨k, resolveName_of_chain h1 h2 k (Nat.le_refl k)⟩

/-- The answer does not depend on the bound. -/
theorem C33_answer_unique {f1 f2 : Nat} {r1 r2 : Res Unit (List RR)} (h1 : resolveName rrs f1 n = some r1)
    (h2 : resolveName rrs f2 n = some r2) : r1 = r2 := by
  have mono : ∀ {f f' : Nat} {r : Res Unit (List RR)}, f ≤ f' → resolveName rrs f n = some r → resolveName rrs f' n = some r := by
    intro f f' r hf h
    obtain ⟨k, m, l, hk, a, b, rfl⟩ := resolveName_some h
    exact resolveName_of_chain a b f' (by omega)
  have a := mono (f' := f1 + f2) (by omega) h1
  have b := mono (f' := f1 + f2) (by omega) h2
  rw [a] at b
  simpa using b

/-- **C33.** Everything returned is a verified record, all at one name, none of them a CNAME or DNAME. -/
theorem C33_returned_records {fuel : Nat} {l : List RR} (h : resolveName rrs fuel n = some (.ok l)) :
    ∃ m, (∀ r ∈ l, r ∈ rrs ∧ r.name = m) ∧ ∀ r ∈ l, (∀ c, r ≠ .cname c) ∧ ∀ d, r ≠ .dname d := by
  obtain ⟨k, m, l', _, _, hf, e⟩ := resolveName_some h
  obtain rfl := Res.ok.inj e
  refine ⟨m, ?_, ?_⟩
  · intro r hr
    cases hf with
    | records => simpa using List.mem_filter.mp hr
    | invalid => simp at hr
  · intro r hr
    cases hf with
    | invalid => simp at hr
    | records h1 h2 =>
      obtain ⟨a, b⟩ := List.mem_filter.mp hr
      have b : r.name = m := by simpa using b
      constructor
      · rintro c rfl
        exact h1 _ a ⟨c, rfl, b⟩
      · rintro d rfl
        refine h2 _ a ⟨d, [], rfl, ?_⟩
        rw [← b]; rfl

/-- **C33.** With no alias at the name, exactly the records there, in order, at once. -/
theorem C33_no_alias (hc : ∀ r ∈ rrs, ¬ CnameAt n r) (hd : ∀ r ∈ rrs, ¬ DnameFor n r) (fuel : Nat) :
    resolveName rrs fuel n = some (.ok (rrs.filter fun r => r.name = n)) :=
  resolveName_of_chain .nil (.records hc hd) fuel (Nat.zero_le _)

/-- **C33.** A CNAME at the name comes first, before any DNAME. -/
theorem C33_cname {c : CName} (h : FirstWith rrs (CnameAt n) (.cname c)) (fuel : Nat) :
    resolveName rrs (fuel + 1) n = resolveName rrs fuel c.canonicalName :=
  (resolveName_chain (.snoc .nil (.cname c h))).1 fuel

/-- A chain through a CNAME and a DNAME to an address. -/
example : resolveName [wA "q.", wCname "a." "x.d.", wDname "d." "t.e.", wA "x.t.e."] 2 ⟨ascii "a."⟩ = some (.ok [wA "x.t.e."]) ∧
    resolveName [wA "q.", wCname "a." "x.d."] 0 ⟨ascii "q."⟩ = some (.ok [wA "q."]) := by decide +kernel

/-! ## C34 -/

/-- Zone `c.` with two CNAMEs pointing at each other. -/
def cnameLoop : List RR := wZone "." 0 ++ wDelegation "." "c." 1 ++
  [wCname "a.c." "b.c.", wSig "a.c." 5 2 "c.", wCname "b.c." "a.c.", wSig "b.c." 5 2 "c."]

/-- **C34 is false of the code**: a stream with a CNAME loop is accepted by `verify_rr_stream`, and `resolve_name` does not return. -/
theorem C34_fails_cname_loop :
    ∃ v, verifyRRStream true wPlatform 3 cnameLoop = some (.ok v) ∧
      ∀ fuel, resolveName v.verifiedRrs fuel ⟨ascii "a.c."⟩ = none := by
  let v : Verified := ⟨[wCname "a.c." "b.c.", wCname "b.c." "a.c."], 1000000000, 2000000000, 3600⟩
  have h3 : firstCname v.verifiedRrs ⟨ascii "a.c."⟩ = some ⟨⟨ascii "a.c."⟩, ⟨ascii "b.c."⟩⟩ := by decide
  have h4 : firstCname v.verifiedRrs ⟨ascii "b.c."⟩ = some ⟨⟨ascii "b.c."⟩, ⟨ascii "a.c."⟩⟩ := by decide
  refine ⟨v, by decide +kernel, fun fuel => ?_⟩
  have c1 : Chain v.verifiedRrs ⟨ascii "a.c."⟩ 1 ⟨ascii "b.c."⟩ := .snoc .nil (.cname _ (firstCname_some h3))
  exact diverges_of_cycle (i := 0) (j := 2) (by omega) .nil (.snoc c1 (.cname _ (firstCname_some h4))) fuel

/-- **C34 (partial).** For valid names, `resolve_name` returns iff its chain of redirections never visits a name twice. Missing:
that it returns otherwise, which is false. -/
theorem C34_returns_iff_no_cycle_partial (hn : Obtainable n) (hr : ∀ c, RR.cname c ∈ rrs → Obtainable c.canonicalName) :
    (∃ fuel r, resolveName rrs fuel n = some r) ↔ ∀ i j m, i < j → Chain rrs n i m → ¬ Chain rrs n j m := by
  constructor
  · rintro ⟨fuel, r, h⟩ i j m hij hi hj
    rw [diverges_of_cycle hij hi hj fuel] at h
    simp at h
  · exact returns_of_no_cycle hn.nameText.1.short (fun c hc => (hr c hc).nameText.1.short)

/-- **C34 (partial).** With CNAMEs only, a run that returns follows at most as many redirections as there are records. -/
theorem C34_bound_partial (hd : ∀ d, RR.dname d ∉ rrs) {fuel : Nat} {r : Res Unit (List RR)}
    (h : resolveName rrs fuel n = some r) : resolveName rrs rrs.length n = some r := by
  obtain ⟨k, m, l, _, hc, hf, rfl⟩ := resolveName_some h
  exact resolveName_of_chain hc hf _ (chain_cnames hd ⟨fuel, _, h⟩ hc)

/-- Without aliases at all there is no cycle. -/
example (fuel : Nat) : resolveName [wA "a.", wA "b."] fuel ⟨ascii "b."⟩ = some (.ok [wA "b."]) :=
  C33_no_alias (by simp [CnameAt, wA]) (by simp [DnameFor, wA]) fuel

example : resolveName [wCname "a." "b.", wCname "b." "c.", wA "c."] 3 ⟨ascii "a."⟩ = some (.ok [wA "c."]) := by decide +kernel

/-! ## C35 -/

/-- Zone `c.` redirecting itself to `d.`, and zone `xd.` with an address. -/
def dnameHijack : List RR := wZone "." 0 ++ wDelegation "." "c." 1 ++
  [wDname "c." "d.", wSig "c." 39 1 "c."] ++ wDelegation "." "xd." 1 ++ [wA "xd.", wSig "xd." 1 1 "xd."]

/-- **C35 is false of the code** (1): the suffix is compared as text, not by labels. The stream is
accepted, and `resolve_name("xc.")` answers with an address of zone `xd.`, although only the root (which delegates), `c.` and
`xd.` signed anything, and `xc.` is not below `c.`: whoever controls `c.` and `xd.` answers for `xc.`. -/
theorem C35_fails_text_suffix :
    (∃ v, verifyRRStream true wPlatform 4 dnameHijack = some (.ok v) ∧
      resolveName v.verifiedRrs 1 ⟨ascii "xc."⟩ = some (.ok [wA "xd."])) ∧
    HasLabels ⟨ascii "xc."⟩ [ascii "xc"] ∧ HasLabels ⟨ascii "c."⟩ [ascii "c"] ∧ ¬ AtOrBelow [ascii "xc"] [ascii "c"] := by
  refine ⟨⟨⟨[wA "xd.", wDname "c." "d."], 1000000000, 2000000000, 3600⟩, by decide +kernel, by decide +kernel⟩,
    ⟨?_, by decide, by decide⟩, ⟨?_, by decide, by decide⟩, ?_⟩
  · intro l hl
    simp only [List.mem_singleton] at hl
    subst hl
    exact ⟨by decide, by decide, by decide⟩
  · intro l hl
    simp only [List.mem_singleton] at hl
    subst hl
    exact ⟨by decide, by decide, by decide⟩
  · rintro ⟨pre, h⟩
    cases pre with
    | nil => exact absurd h (by decide)
    | cons p ps =>
      have := congrArg List.length h
      simp at this

/-- **C35 is false of the code** (2): the DNAME is applied to its own owner (3) a DNAME at the root fuses two labels (4) a DNAME
with the root as target gives a name with an empty label, so never the right records. -/
theorem C35_fails_owner_and_root :
    resolveName [wDname "c." "d.", wA "c.", wA "d."] 1 ⟨ascii "c."⟩ = some (.ok [wA "d."]) ∧
    resolveName [wDname "." "d.", wA "xd."] 0 ⟨ascii "x."⟩ = none ∧
    (∃ l, Alias [wDname "." "d.", wA "xd."] ⟨ascii "x."⟩ l ∧ l = ⟨ascii "xd."⟩) ∧
    resolveName [wDname "c." ".", wA "x."] 1 ⟨ascii "x.c."⟩ = some (.ok []) := by
  refine ⟨by decide +kernel, by decide +kernel, ⟨_, .dname ⟨⟨ascii "."⟩, ⟨ascii "d."⟩⟩ (ascii "x") _ ?_ ⟨[], [wA "xd."], rfl,
    ⟨⟨⟨ascii "."⟩, ⟨ascii "d."⟩⟩, ascii "x", rfl, by decide⟩, by simp⟩ (by decide) (by decide), rfl⟩, by decide +kernel⟩
  rintro r hr ⟨c, rfl, _⟩
  simp [wDname, wA] at hr

/-- **C35, what the code does.** A DNAME at the name with labels `z :: zs` is considered for a name iff one of that name's labels ends
with `z` and is followed by exactly the labels `zs`. -/
theorem C35_applies_iff {d : DName} {ls zs : List Bytes} {z : Bytes} (hn : HasLabels n ls) (hd : HasLabels d.name (z :: zs)) :
    DnameFor n (.dname d) ↔ ∃ above x, ls = above ++ (x ++ z) :: zs := by
  constructor
  · rintro ⟨d', pre, e, h⟩
    obtain rfl := RR.dname.inj e
    rw [hn.bytes, hd.bytes] at h
    rcases text_suffix hn.labels hd.labels ((endsWith_iff _ _).mpr ⟨pre, h⟩) with h | ⟨above, x, z', zs', e, h⟩
    · simp at h
    · simp only [List.cons.injEq] at e
      obtain ⟨rfl, rfl⟩ := e
      exact ⟨above, x, h⟩
  · rintro ⟨above, x, rfl⟩
    exact ⟨d, dotted above ++ x, rfl, by rw [hn.bytes, hd.bytes, text_fuse]⟩

/-- **C35, what the code does.** The first applicable DNAME, in the absence of a CNAME, replaces these labels by those of the
target, joining the rest `x` of the partly matched label to the target's first label; if the result is too long (a label over
63 characters or more than 255 in all) the answer is empty. -/
theorem C35_effect {d : DName} {above zs ts : List Bytes} {x z t : Bytes} (hn : HasLabels n (above ++ (x ++ z) :: zs))
    (hd : HasLabels d.name (z :: zs)) (ht : HasLabels d.delegationName (t :: ts)) (hc : ∀ r ∈ rrs, ¬ CnameAt n r)
    (hf : FirstWith rrs (DnameFor n) (.dname d)) :
    ((x ++ t).length ≤ 63 → (text (above ++ (x ++ t) :: ts)).length ≤ 255 →
      ∃ m, HasLabels m (above ++ (x ++ t) :: ts) ∧ ∀ fuel, resolveName rrs (fuel + 1) n = resolveName rrs fuel m) ∧
    (63 < (x ++ t).length ∨ 255 < (text (above ++ (x ++ t) :: ts)).length →
      ∀ fuel, resolveName rrs fuel n = some (.ok [])) := by
  have hp : n.bytes = (dotted above ++ x) ++ d.name.bytes := by rw [hn.bytes, hd.bytes, text_fuse]
  have hq : (dotted above ++ x) ++ d.delegationName.bytes = text (above ++ (x ++ t) :: ts) := by rw [ht.bytes, text_fuse]
  have hxz : Label (x ++ z) := hn.labels _ (by simp)
  have hlt : Label t := ht.labels _ (by simp)
  have hchars : ∀ c ∈ x ++ t, 33 ≤ c.toNat ∧ c.toNat ≤ 126 ∧ c.toNat ≠ 34 ∧ c.toNat ≠ 46 ∧ ¬ (65 ≤ c.toNat ∧ c.toNat ≤ 90) := by
    intro c hc
    rcases List.mem_append.mp hc with hc | hc
    · exact label_append_right hxz c hc
    · exact hlt.chars c hc
  constructor
  · intro h1 h2
    have hl : ∀ l ∈ above ++ (x ++ t) :: ts, Label l := by
      intro l hl
      rcases List.mem_append.mp hl with hl | hl
      · exact hn.labels l (by simp [hl])
      · rcases List.mem_cons.mp hl with rfl | hl
        · refine ⟨?_, h1, hchars⟩
          intro e
          exact hlt.nonempty (List.append_eq_nil_iff.mp e).2
        · exact ht.labels l (by simp [hl])
    refine ⟨⟨text (above ++ (x ++ t) :: ts)⟩, ⟨hl, rfl, h2⟩, fun fuel => ?_⟩
    exact (resolveName_chain (.snoc .nil (.dname d _ _ hc hf hp (by rw [hq]; exact (tryFrom_denotes _ _).mp (tryFrom_text hl h2))))).1 fuel
  · intro h fuel
    refine resolveName_of_chain .nil (.invalid d _ hc hf hp ?_) fuel (Nat.zero_le _)
    rw [hq]
    rcases h with h | h
    · have : text (above ++ (x ++ t) :: ts) = dotted above ++ (x ++ t) ++ (dot :: dotted ts) := by
        rw [text_ne_nil (by simp)]; simp [dotted]
      rw [this]
      refine (tryFrom_none _).mp (tryFrom_long_label (fun hm => ?_) h)
      exact (hchars _ hm).2.2.2.1 rfl
    · exact (tryFrom_none _).mp (tryFrom_long h)

/-- **C35 (partial).** For a name at or below the DNAME's owner (and neither the owner nor the target the root), the owner's
labels are replaced by the target's, and an over-long result gives an empty answer. Missing: that only names strictly below are
redirected, which is false. -/
theorem C35_below_partial {d : DName} {above ds ts : List Bytes} (hn : HasLabels n (above ++ ds))
    (hd : HasLabels d.name ds) (hd0 : ds ≠ []) (ht : HasLabels d.delegationName ts) (ht0 : ts ≠ [])
    (hc : ∀ r ∈ rrs, ¬ CnameAt n r) (hf : FirstWith rrs (DnameFor n) (.dname d)) :
    ((text (above ++ ts)).length ≤ 255 →
      ∃ m, HasLabels m (above ++ ts) ∧ ∀ fuel, resolveName rrs (fuel + 1) n = resolveName rrs fuel m) ∧
    (255 < (text (above ++ ts)).length → ∀ fuel, resolveName rrs fuel n = some (.ok [])) := by
  cases ds with
  | nil => exact absurd rfl hd0
  | cons z zs =>
    cases ts with
    | nil => exact absurd rfl ht0
    | cons t ts =>
      obtain ⟨h1, h2⟩ := C35_effect (x := []) hn hd ht hc hf
      exact ⟨fun h => h1 (ht.labels t (by simp)).short h, fun h => h2 (Or.inr h)⟩

/-- A name below a DNAME, and one that becomes too long. -/
example : resolveName [wDname "d." "t.e.", wA "x.t.e."] 1 ⟨ascii "x.d."⟩ = some (.ok [wA "x.t.e."]) ∧
    resolveName [.dname ⟨⟨ascii "d."⟩, ⟨(List.replicate 127 [100, dot]).flatten⟩⟩] 0 ⟨ascii "x.d."⟩ = some (.ok []) := by
  decide +kernel

end Dnssec.Props
