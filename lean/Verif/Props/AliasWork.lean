import Verif.Proofs.Counter
import Verif.Props.Resolve

/-! # C114: how many aliases `resolve_name` follows -/

namespace Dnssec.Props

open Spec

/-- **C114 is false**: a zone with `n` DNAME records, each signed, makes `resolve_name` follow `2^n - 1` aliases, for every `n` up to
126. The stream has `2 n + 8` records and is accepted. The zone is an ordinary one: every record has an owner and type of its own, and no record is
below the owner of a DNAME. The lookup ends, at an address. -/
theorem C114_fails_exponential (n : Nat) (hn : n ≤ 126) (dbg : Bool) :
    ∃ inp q a, inp.length = 2 * n + 8 ∧ Obtainable q ∧
      (∃ fuel v, verifyRRStream dbg wPlatform fuel inp = some (.ok v)) ∧
      ∀ fuel v, verifyRRStream dbg wPlatform fuel inp = some (.ok v) →
        (∀ r, r ∈ v.verifiedRrs → (∃ d, r = .dname d) ∨ r = .a a) ∧
        (∀ d r pre, RR.dname d ∈ v.verifiedRrs → r ∈ v.verifiedRrs → r.name.bytes = pre ++ d.name.bytes → r = .dname d) ∧
        (∀ k, k < 2 ^ n - 1 → resolveName v.verifiedRrs k q = none) ∧
        ∃ l, resolveName v.verifiedRrs (2 ^ n - 1) q = some (.ok l) ∧ ∀ r, r ∈ l ↔ r = .a a := by
  refine ⟨cStream (counterRecords n), numName (List.replicate n false),
    ⟨numName (List.replicate n true), ⟨[1, 2, 3, 4], rfl⟩⟩, ?_, (numName_labels (by simpa using hn)).obtainable,
    c_accepted counter_ordinary (by simp [counterRecords]) dbg, ?_⟩
  · have h1 : ∀ rs : List RR, (cSigned rs).length = 2 * rs.length := by
      intro rs
      induction rs with
      | nil => rfl
      | cons r rs ih =>
        show ([r, .rrsig (cSig r)] ++ cSigned rs).length = _
        simp [ih]; omega
    have h2 : cPath.length = 6 := rfl
    rw [cStream, List.length_append, h1, h2]
    simp [counterRecords]
    omega
  · intro fuel v hv
    have hm := c_verified counter_ordinary hv
    have hc := counter_chain hm n [] (Nat.le_refl _) (by simpa using hn)
    refine ⟨?_, ?_, fun k hk => (resolveName_chain hc).2 k hk,
      _, resolveName_of_chain hc (counter_final hm) _ (Nat.le_refl _), ?_⟩
    · intro r hr
      rcases mem_counter.mp ((hm r).mp hr) with ⟨i, _, rfl⟩ | rfl
      · exact .inl ⟨_, rfl⟩
      · exact .inr rfl
    · intro d r pre hd hr he
      rcases mem_counter.mp ((hm _).mp hd) with ⟨i, _, e⟩ | e
      · simp only [carry, RR.dname.injEq] at e
        subst e
        rcases mem_counter.mp ((hm r).mp hr) with ⟨j, _, rfl⟩ | rfl
        · obtain ⟨c, hc, _⟩ := numName_suffix he
          rw [trailing_ones (a := []) hc]
          rfl
        · obtain ⟨c, hc, _⟩ := numName_suffix he
          exact absurd hc not_all_ones
      · exact absurd e (by simp [topAddress])
    · intro r
      simp only [List.mem_filter, decide_eq_true_eq]
      constructor
      · rintro ⟨hr, he⟩
        rcases mem_counter.mp ((hm r).mp hr) with ⟨i, _, rfl⟩ | rfl
        · exact absurd (numName_inj he).symm (not_all_ones (c := []))
        · rfl
      · rintro rfl
        exact ⟨(hm _).mpr (mem_counter.mpr (.inr rfl)), rfl⟩

/-- With three digits, run: seven aliases. -/
example : (verifyRRStream true wPlatform 5 (cStream (counterRecords 3))).isSome = true ∧
    resolveName (counterRecords 3) 6 ⟨ascii "0.0.0.c."⟩ = none ∧
    resolveName (counterRecords 3) 7 ⟨ascii "0.0.0.c."⟩ = some (.ok [wA "1.1.1.c."]) := by decide +kernel

/-- **C114 (partial).** If no DNAME points to a name that ends in a DNAME's owner, or that a DNAME's owner ends in, then a run that returns
follows at most twice as many aliases as there are CNAME records, and one more. -/
theorem C114_few_partial {rrs : List RR} {q : Name} (ho : ∀ d, RR.dname d ∈ rrs → Obtainable d.delegationName)
    (hd : ∀ d d' : DName, RR.dname d ∈ rrs → RR.dname d' ∈ rrs → ∀ x : Bytes,
      d.delegationName.bytes ≠ x ++ d'.name.bytes ∧ d'.name.bytes ≠ x ++ d.delegationName.bytes)
    {fuel : Nat} {r : Res Unit (List RR)} (h : resolveName rrs fuel q = some r) :
    resolveName rrs (2 * (rrs.filter fun r => r.ty = 5).length + 1) q = some r := by
  obtain ⟨k, m, l, _, hc, hf, rfl⟩ := resolveName_some h
  exact resolveName_of_chain hc hf _ (chain_few ho hd ⟨fuel, _, h⟩ hc)

/-- A CNAME into a DNAME: the bound is three, and the run needs two. -/
example : let rrs := [wCname "a." "x.d.", wDname "d." "t.e.", wA "x.t.e."]
    (∀ d, RR.dname d ∈ rrs → Obtainable d.delegationName) ∧
    (∀ d d' : DName, RR.dname d ∈ rrs → RR.dname d' ∈ rrs → ∀ x : Bytes,
      d.delegationName.bytes ≠ x ++ d'.name.bytes ∧ d'.name.bytes ≠ x ++ d.delegationName.bytes) ∧
    resolveName rrs 3 ⟨ascii "a."⟩ = some (.ok [wA "x.t.e."]) ∧ resolveName rrs 1 ⟨ascii "a."⟩ = none := by
  have one : ∀ d, RR.dname d ∈ [wCname "a." "x.d.", wDname "d." "t.e.", wA "x.t.e."] → d = ⟨⟨ascii "d."⟩, ⟨ascii "t.e."⟩⟩ := by
    intro d hd
    simp [wCname, wDname, wA] at hd
    exact hd
  refine ⟨?_, ?_, by decide +kernel, by decide +kernel⟩
  · intro d hd
    rw [one d hd]
    exact obtainable_of (s := ascii "t.e.") (by decide)
  · intro d d' hd hd' x
    rw [one d hd, one d' hd']
    constructor
    · intro e
      have e1 : (ascii "t.e.").drop 2 = ascii "d." := by
        have hl := congrArg List.length e
        have : x.length = 2 := by
          have h1 : (ascii "t.e.").length = 4 := rfl
          have h2 : (ascii "d.").length = 2 := rfl
          simp only [List.length_append] at hl
          omega
        rw [show ascii "t.e." = x ++ ascii "d." from e, ← this, List.drop_left]
      exact absurd e1 (by decide)
    · intro e
      have hl := congrArg List.length e
      have h1 : (ascii "t.e.").length = 4 := rfl
      have h2 : (ascii "d.").length = 2 := rfl
      simp only [List.length_append] at hl
      omega

/-- **C114 (partial).** For any records, a run that returns follows fewer aliases than there are texts of up to 255 bytes. -/
theorem C114_finite_partial {rrs : List RR} {q : Name} (hq : Obtainable q) (hr : ∀ c, RR.cname c ∈ rrs → Obtainable c.canonicalName)
    {fuel : Nat} {r : Res Unit (List RR)} (h : resolveName rrs fuel q = some r) :
    resolveName rrs (257 ^ 255) q = some r := by
  obtain ⟨k, m, l, _, hc, hf, rfl⟩ := resolveName_some h
  refine resolveName_of_chain hc hf _ ?_
  exact chain_finite hq.nameText.1.short (fun c hc => (hr c hc).nameText.1.short) ⟨fuel, _, h⟩ hc

/-- A CNAME and a DNAME followed in turn. -/
example : let rrs := [wCname "a.b." "x.d.", wDname "d." "e.", wA "x.e."]
    Obtainable ⟨ascii "a.b."⟩ ∧ (∀ c, RR.cname c ∈ rrs → Obtainable c.canonicalName) ∧
    resolveName rrs 2 ⟨ascii "a.b."⟩ = some (.ok [wA "x.e."]) := by
  refine ⟨obtainable_of (s := ascii "a.b.") (by decide +kernel), ?_, by decide +kernel⟩
  intro c hc
  simp only [List.mem_cons, List.not_mem_nil, or_false, wDname, wA, reduceCtorEq, or_self, wCname, RR.cname.injEq] at hc
  subst hc
  exact obtainable_of (s := ascii "x.d.") (by decide +kernel)

end Dnssec.Props
