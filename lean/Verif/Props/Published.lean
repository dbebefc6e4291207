import Verif.Spec.Published
import Verif.Props.Operators
import Verif.Props.Resolve

/-! # C94: what `resolve_name` returns is what operators have published -/

namespace Dnssec.Props

open Dnssec.Spec

variable {dbg : Bool} {p : Platform} {W : Operators} {fuel : Nat} {bs : Bytes} {inp : List RR} {v : Verified}

/-- The target of a CNAME that was read is a valid name. -/
theorem stream_cname (h : parseRRStream dbg bs = .ok inp) {c : CName} (hc : RR.cname c ∈ inp) : Obtainable c.canonicalName := by
  rw [parseRRStream_iff] at h
  obtain ⟨ps, _, rfl, h3⟩ := h
  obtain ⟨x, hx, e⟩ := List.mem_map.mp hc
  obtain ⟨ttl, h⟩ := parseRR_ok (h3 x hx)
  obtain ⟨name, ty, data, r1, _, _, _, h4⟩ := parseWirePacketRR_ok h
  obtain ⟨_, _, p3, _⟩ := readRData_props h4
  exact p3 _ (by rw [e]; simp [rdataNames])

/-- The answer, for any reading `D` of DNAMEs that covers what the code does with the verified ones. -/
theorem resolve_published {D : DName → Name → Name → Prop} (hparse : parseRRStream dbg bs = .ok inp)
    (hv : verifyRRStream dbg p fuel inp = some (.ok v))
    (hroot : ∀ k : DnsKey, k.name = rootName → Anchored p ianaAnchors k → W.owns rootName k) {n : Name} {f : Nat} {l : List RR}
    (hr : resolveName v.verifiedRrs f n = some (.ok l))
    (hh : ∀ m, Leads W D n m → ∀ z : Name, (∃ pre, m.bytes = pre ++ z.bytes) → HonestOperator p W z)
    (hD : ∀ d m m', RR.dname d ∈ v.verifiedRrs → Leads W D n m → DnameTextually d m m' → D d m m') :
    ∃ m, Leads W D n m ∧ ∀ r ∈ l, r.name = m ∧ ∃ z st, W.signed z st ∧ st.ty = r.ty ∧ OwnedBy m st.owner ∧
      (∀ d, d ∈ st.rdatas ↔ ∃ x ∈ l, x.ty = r.ty ∧ rdata x = d) ∧
      instant st.inception ≤ v.validFrom ∧ v.expires ≤ instant st.expiration ∧ v.maxCacheTtl.toNat ≤ st.origTtl.toNat := by
  obtain ⟨k, m, l', h1, h2, e⟩ := (C33_returns_iff (.ok l)).mp ⟨f, hr⟩
  obtain rfl := Res.ok.inj e
  have hl : Leads W D n m := by
    clear h2 hr
    induction h1 with
    | nil => exact .start
    | snoc _ ha ih =>
      rename_i m m' _
      cases ha with
      | cname c hf =>
        obtain ⟨a, b, e, ⟨c', e', hc⟩, _⟩ := hf
        obtain rfl := RR.cname.inj e'
        have hin : RR.cname c ∈ v.verifiedRrs := by rw [e]; simp
        subst hc
        obtain ⟨z, st, t1, _, _, t2, t3, t4, _⟩ := C69_only_signed_partial hparse hv hroot hin (hh c.name ih)
        exact .cname c z st ih t1 t2 t3 ((t4 _).mpr ⟨_, hin, rfl, rfl, rfl⟩)
          (stream_cname hparse (by obtain ⟨_, _, _, _, _, _, h, _⟩ := ((C27_exact hv _).mp hin).1; exact h))
      | dname d pre _ hc hf hp hd =>
        have hin : RR.dname d ∈ v.verifiedRrs := by obtain ⟨a, b, e, _⟩ := hf; rw [e]; simp
        obtain ⟨z, st, t1, _, _, t2, t3, t4, _⟩ := C69_only_signed_partial hparse hv hroot hin (fun z hz => by
          obtain ⟨q, hq⟩ := hz
          exact hh m ih z ⟨pre ++ q, by rw [hp, show d.name.bytes = q ++ z.bytes from hq, List.append_assoc]⟩)
        exact .dname d m m' z st ih t1 t2 t3 ((t4 _).mpr ⟨_, hin, rfl, rfl, rfl⟩) (hD d m m' hin ih ⟨pre, hp, hd⟩)
  refine ⟨m, hl, fun r hm => ?_⟩
  cases h2 with
  | invalid => simp at hm
  | records =>
    have hm' : r ∈ v.verifiedRrs ∧ r.name = m := by simpa using List.mem_filter.mp hm
    obtain ⟨hin, rfl⟩ := hm'
    obtain ⟨z, st, t1, _, _, t2, t3, t4, t5, t6, t7⟩ := C69_only_signed_partial hparse hv hroot hin (hh r.name hl)
    refine ⟨rfl, z, st, t1, t2, t3, fun d => (t4 d).trans ?_, t5, t6, t7⟩
    constructor
    · rintro ⟨x, a, b, c⟩; exact ⟨x, List.mem_filter.mpr ⟨a, by simp [b]⟩, c⟩
    · rintro ⟨x, a, c⟩
      have := List.mem_filter.mp a
      exact ⟨x, this.1, by simpa using this.2, c⟩

/-- **C94.** Whoever made the proof: what `resolve_name` returns is at a name to which aliases lead that operators have signed, and
for each type the records returned are exactly a set an operator has signed for that name (or a wildcard above it), within the times
signed. Assumed is that the operators of zones on the way are honest, and that no verified DNAME has an owner that is a suffix of a name
on the way without that name being below it, or is from or to the root. -/
theorem C94_published_partial (hparse : parseRRStream dbg bs = .ok inp) (hv : verifyRRStream dbg p fuel inp = some (.ok v))
    (hroot : ∀ k : DnsKey, k.name = rootName → Anchored p ianaAnchors k → W.owns rootName k) {n : Name} {f : Nat} {l : List RR}
    (hr : resolveName v.verifiedRrs f n = some (.ok l))
    (hh : ∀ m, Leads W DnameRedirects n m → ∀ z : Name, (∃ pre, m.bytes = pre ++ z.bytes) → HonestOperator p W z)
    (hd : ∀ d m, RR.dname d ∈ v.verifiedRrs → Leads W DnameRedirects n m → (∃ pre, m.bytes = pre ++ d.name.bytes) →
      ∃ above ds ts, above ≠ [] ∧ ds ≠ [] ∧ ts ≠ [] ∧ HasLabels m (above ++ ds) ∧ HasLabels d.name ds ∧ HasLabels d.delegationName ts) :
    ∃ m, Leads W DnameRedirects n m ∧ ∀ r ∈ l, r.name = m ∧ ∃ z st, W.signed z st ∧ st.ty = r.ty ∧ OwnedBy m st.owner ∧
      (∀ d, d ∈ st.rdatas ↔ ∃ x ∈ l, x.ty = r.ty ∧ rdata x = d) ∧
      instant st.inception ≤ v.validFrom ∧ v.expires ≤ instant st.expiration ∧ v.maxCacheTtl.toNat ≤ st.origTtl.toNat := by
  refine resolve_published hparse hv hroot hr hh fun d m m' hin hl => ?_
  rintro ⟨pre, hp, hm⟩
  obtain ⟨above, ds, ts, ha, h1, h2, h3, h4, h5⟩ := hd d m hin hl ⟨pre, hp⟩
  refine ⟨above, ds, ts, ha, h3, h4, h5, ?_⟩
  have e : ∀ x y, y ≠ [] → text (x ++ y) = dotted x ++ text y := by
    intro x y hy
    rw [text_ne_nil (by simp [hy]), text_ne_nil hy]; simp [dotted]
  have hpre : pre = dotted above := by
    rw [h3.bytes, h4.bytes, e _ _ h1] at hp
    exact (List.append_cancel_right hp).symm
  rw [hpre, h5.bytes, ← e _ _ h2] at hm
  have hlen : (text (above ++ ts)).length ≤ 255 := hm.1.short
  have hlab : ∀ l ∈ above ++ ts, Label l := by
    intro l hl
    rcases List.mem_append.mp hl with h | h
    · exact h3.labels l (by simp [h])
    · exact h5.labels l h
  have e2 := ((tryFrom_denotes _ _).mpr hm).symm.trans (tryFrom_text hlab hlen)
  rw [Option.some.inj e2]
  exact ⟨hlab, rfl, hlen⟩

/-- **C94, what the code does:** the same without a condition on DNAMEs, if they are applied to names as texts. -/
theorem C94_textually_partial (hparse : parseRRStream dbg bs = .ok inp) (hv : verifyRRStream dbg p fuel inp = some (.ok v))
    (hroot : ∀ k : DnsKey, k.name = rootName → Anchored p ianaAnchors k → W.owns rootName k) {n : Name} {f : Nat} {l : List RR}
    (hr : resolveName v.verifiedRrs f n = some (.ok l))
    (hh : ∀ m, Leads W DnameTextually n m → ∀ z : Name, (∃ pre, m.bytes = pre ++ z.bytes) → HonestOperator p W z) :
    ∃ m, Leads W DnameTextually n m ∧ ∀ r ∈ l, r.name = m ∧ ∃ z st, W.signed z st ∧ st.ty = r.ty ∧ OwnedBy m st.owner ∧
      (∀ d, d ∈ st.rdatas ↔ ∃ x ∈ l, x.ty = r.ty ∧ rdata x = d) ∧
      instant st.inception ≤ v.validFrom ∧ v.expires ≤ instant st.expiration ∧ v.maxCacheTtl.toNat ≤ st.origTtl.toNat :=
  resolve_published hparse hv hroot hr hh fun _ _ _ _ _ h => h

/-! ### Examples -/

/-- The operator of `com.` has signed an alias at `w.com.`, one for the names below `d.com.`, and addresses. -/
def oAliases : List Statement :=
  [oSt "com." 5 [ascii "w", ascii "com"] (rdata (.cname ⟨⟨ascii "w.com."⟩, ⟨ascii "x.d.com."⟩⟩)),
   oSt "com." 39 [ascii "d", ascii "com"] (rdata (wDname "d.com." "e.com.")),
   oSt "com." 1 [ascii "x", ascii "e", ascii "com"] [1, 2, 3, 4],
   oSt "com." 1 [ascii "xe", ascii "com"] [1, 2, 3, 4]]

/-- A proof for `w.com.`, which is `x.d.com.`, which is `x.e.com.`. -/
def oAliasStream : List RR :=
  oPath ++ [.cname ⟨⟨ascii "w.com."⟩, ⟨ascii "x.d.com."⟩⟩, oSig "w.com." 5 2 "com.", wDname "d.com." "e.com.", oSig "d.com." 39 2 "com.",
    wA "x.e.com.", oSig "x.e.com." 1 3 "com."]

/-- A proof for the alias of names below `d.com.` and the address of `xe.com.`. -/
def oFusedStream : List RR :=
  oPath ++ [wDname "d.com." "e.com.", oSig "d.com." 39 2 "com.", wA "xe.com.", oSig "xe.com." 1 2 "com."]

/-- The aliases are those two. -/
theorem oAliases_cname {c : CName} {z : Name} {st : Statement} (h1 : (oWorld oAliases).signed z st) (h2 : st.ty = 5)
    (h3 : OwnedBy c.name st.owner) (h4 : rdata (.cname c) ∈ st.rdatas) (h5 : Obtainable c.canonicalName) :
    c = ⟨⟨ascii "w.com."⟩, ⟨ascii "x.d.com."⟩⟩ := by
  have hall : ∀ e ∈ oSigned oAliases, e.2.ty = 5 → e.2.owner = [ascii "w", ascii "com"] ∧
    e.2.rdatas = [wire [ascii "x", ascii "d", ascii "com"]] := by decide +kernel
  obtain ⟨a, b⟩ := hall _ h1 h2
  have ho := owned_labels h3 (by rw [show st.owner = _ from a]; decide)
  rw [show st.owner = _ from a] at ho
  rw [show st.rdatas = _ from b, List.mem_singleton, rdata_cname] at h4
  have ht := hasLabels_of_wire h5 (by unfold WireLabels; decide) h4
  obtain ⟨⟨n⟩, ⟨t⟩⟩ := c
  have e1 := ho.bytes
  have e2 := ht.bytes
  simp only at e1 e2
  subst e1; subst e2
  decide

theorem oAliases_dname {d : DName} {z : Name} {st : Statement} (h1 : (oWorld oAliases).signed z st) (h2 : st.ty = 39)
    (h3 : OwnedBy d.name st.owner) (h4 : rdata (.dname d) ∈ st.rdatas) {m m' : Name} (h5 : DnameRedirects d m m') :
    d = ⟨⟨ascii "d.com."⟩, ⟨ascii "e.com."⟩⟩ := by
  have hall : ∀ e ∈ oSigned oAliases, e.2.ty = 39 → e.2.owner = [ascii "d", ascii "com"] ∧
    e.2.rdatas = [wire [ascii "e", ascii "com"]] := by decide +kernel
  obtain ⟨a, b⟩ := hall _ h1 h2
  have ho := owned_labels h3 (by rw [show st.owner = _ from a]; decide)
  rw [show st.owner = _ from a] at ho
  rw [show st.rdatas = _ from b, List.mem_singleton, rdata_dname] at h4
  obtain ⟨_, _, _, _, _, _, h6, _⟩ := h5
  have ht := hasLabels_of_wire h6.obtainable (by unfold WireLabels; decide) h4
  obtain ⟨⟨n⟩, ⟨t⟩⟩ := d
  have e1 := ho.bytes
  have e2 := ht.bytes
  simp only at e1 e2
  subst e1; subst e2
  decide

/-- What `d.com.` is redirected to by labels. -/
theorem oAliases_redirects {above : List Bytes} {m m' : Name} (hm : HasLabels m above)
    (h : DnameRedirects ⟨⟨ascii "d.com."⟩, ⟨ascii "e.com."⟩⟩ m m') :
    ∃ a, a ≠ [] ∧ above = a ++ [ascii "d", ascii "com"] ∧ HasLabels m' (a ++ [ascii "e", ascii "com"]) := by
  obtain ⟨a, ds, ts, h0, h1, h2, h3, h4⟩ := h
  have e1 := h2.unique (show HasLabels ⟨ascii "d.com."⟩ [ascii "d", ascii "com"] by decide)
  have e2 := h3.unique (show HasLabels ⟨ascii "e.com."⟩ [ascii "e", ascii "com"] by decide)
  subst e1; subst e2
  exact ⟨a, h0, hm.unique h1, h4⟩

/-- Where the aliases lead from `w.com.`. -/
theorem oAliases_leads {m : Name} (h : Leads (oWorld oAliases) DnameRedirects ⟨ascii "w.com."⟩ m) :
    m ∈ [⟨ascii "w.com."⟩, ⟨ascii "x.d.com."⟩, (⟨ascii "x.e.com."⟩ : Name)] := by
  induction h with
  | start => simp
  | cname c z st _ h1 h2 h3 h4 h5 => rw [oAliases_cname h1 h2 h3 h4 h5]; simp
  | dname d m m' z st _ h1 h2 h3 h4 h5 ih =>
    obtain rfl := oAliases_dname h1 h2 h3 h4 h5
    simp only [List.mem_cons, List.not_mem_nil, or_false] at ih
    rcases ih with rfl | rfl | rfl
    · obtain ⟨a, h0, e, _⟩ := oAliases_redirects (above := [ascii "w", ascii "com"]) (by decide) h5
      have := congrArg List.length e
      cases a with
      | nil => exact absurd rfl h0
      | cons => simp at this
    · obtain ⟨a, h0, e, h⟩ := oAliases_redirects (above := [ascii "x", ascii "d", ascii "com"]) (by decide) h5
      have : a = [ascii "x"] := (List.append_cancel_right (as := [ascii "x"]) e).symm
      subst this
      have : m' = ⟨ascii "x.e.com."⟩ := by cases m'; exact congrArg Name.mk (h.bytes.trans (by decide))
      rw [this]; simp
    · obtain ⟨a, h0, e, h⟩ := oAliases_redirects (above := [ascii "x", ascii "e", ascii "com"]) (by decide) h5
      have : [ascii "e", ascii "com"] = [ascii "d", ascii "com"] := by
        have := congrArg (List.drop 1) e
        match a, h0, e with
        | [b], _, e => simpa using this
        | b :: c :: a, _, e => have := congrArg List.length e; simp at this
      exact absurd this (by decide)

/-- The proof meets the hypotheses of `C94_published_partial`. -/
example : ∃ bs v, parseRRStream false bs = .ok oAliasStream ∧ verifyRRStream false (oPlatform false oAliases) 3 oAliasStream = some (.ok v) ∧
    (∀ k : DnsKey, k.name = rootName → Anchored (oPlatform false oAliases) ianaAnchors k → (oWorld oAliases).owns rootName k) ∧
    resolveName v.verifiedRrs 2 ⟨ascii "w.com."⟩ = some (.ok [wA "x.e.com."]) ∧
    (∀ z, HonestOperator (oPlatform false oAliases) (oWorld oAliases) z) ∧
    ∀ d m, RR.dname d ∈ v.verifiedRrs → Leads (oWorld oAliases) DnameRedirects ⟨ascii "w.com."⟩ m → (∃ pre, m.bytes = pre ++ d.name.bytes) →
      ∃ above ds ts, above ≠ [] ∧ ds ≠ [] ∧ ts ≠ [] ∧ HasLabels m (above ++ ds) ∧ HasLabels d.name ds ∧ HasLabels d.delegationName ts := by
  refine ⟨(oAliasStream.map (writeRR · 0)).flatten,
    ⟨[.cname ⟨⟨ascii "w.com."⟩, ⟨ascii "x.d.com."⟩⟩, wDname "d.com." "e.com.", wA "x.e.com."], 1000000000, 2000000000, 3600⟩,
    by decide +kernel, by decide +kernel, fun _ => oRoot, by decide +kernel, fun _ => oHonest (by decide) (by simp), ?_⟩
  rintro d m hd hm ⟨pre, hp⟩
  obtain rfl : d = ⟨⟨ascii "d.com."⟩, ⟨ascii "e.com."⟩⟩ := by simpa [wDname, wA] using hd
  have := oAliases_leads hm
  simp only [List.mem_cons, List.not_mem_nil, or_false] at this
  rcases this with rfl | rfl | rfl
  · have := (List.isSuffixOf_iff_suffix.mpr ⟨pre, hp.symm⟩)
    exact absurd this (by decide)
  · exact ⟨[ascii "x"], [ascii "d", ascii "com"], [ascii "e", ascii "com"], by simp, by simp, by simp, by decide, by decide, by decide⟩
  · have := (List.isSuffixOf_iff_suffix.mpr ⟨pre, hp.symm⟩)
    exact absurd this (by decide)

/-- **C94 is false**, with honest operators only: no alias is published for `xd.com.`, but `resolve_name` follows one for the names below
`d.com.`, and returns the address of `xe.com.`. -/
theorem C94_fails_for_dname : ∃ bs v, parseRRStream false bs = .ok oFusedStream ∧
    verifyRRStream false (oPlatform false oAliases) 3 oFusedStream = some (.ok v) ∧
    (∀ k : DnsKey, k.name = rootName → Anchored (oPlatform false oAliases) ianaAnchors k → (oWorld oAliases).owns rootName k) ∧
    (∀ z, HonestOperator (oPlatform false oAliases) (oWorld oAliases) z) ∧
    resolveName v.verifiedRrs 2 ⟨ascii "xd.com."⟩ = some (.ok [wA "xe.com."]) ∧
    ∀ m, Leads (oWorld oAliases) DnameRedirects ⟨ascii "xd.com."⟩ m → m = ⟨ascii "xd.com."⟩ := by
  refine ⟨(oFusedStream.map (writeRR · 0)).flatten, ⟨[wDname "d.com." "e.com.", wA "xe.com."], 1000000000, 2000000000, 3600⟩,
    by decide +kernel, by decide +kernel, fun _ => oRoot, fun _ => oHonest (by decide) (by simp), by decide +kernel, ?_⟩
  intro m h
  induction h with
  | start => rfl
  | cname c z st _ h1 h2 h3 h4 h5 ih =>
    rw [oAliases_cname h1 h2 h3 h4 h5] at ih
    exact absurd ih (by decide)
  | dname d m m' z st _ h1 h2 h3 h4 h5 ih =>
    subst ih
    obtain rfl := oAliases_dname h1 h2 h3 h4 h5
    obtain ⟨a, h0, e, _⟩ := oAliases_redirects (above := [ascii "xd", ascii "com"]) (by decide) h5
    have := congrArg List.length e
    cases a with
    | nil => exact absurd rfl h0
    | cons => simp at this

/-- **C94 is false** if only the operators of the zones above the names on the way are honest: the attacker, who operates `oogle.com.`, has
`resolve_name` return an address for `google.com.` that nobody has signed. -/
theorem C94_fails_for_textual_suffix : ∃ bs v, parseRRStream false bs = .ok oAttack ∧
    verifyRRStream false (oPlatform true oAddress) 4 oAttack = some (.ok v) ∧
    resolveName v.verifiedRrs 0 ⟨ascii "google.com."⟩ = some (.ok [wA "google.com."]) ∧
    (∀ k : DnsKey, k.name = rootName → Anchored (oPlatform true oAddress) ianaAnchors k → (oWorld oAddress).owns rootName k) ∧
    (∀ z : Name, z ≠ ⟨ascii "oogle.com."⟩ → HonestOperator (oPlatform true oAddress) (oWorld oAddress) z) ∧
    ∀ z st, (oWorld oAddress).signed z st → ¬ OwnedBy ⟨ascii "google.com."⟩ st.owner := by
  obtain ⟨bs, v, h1, h2, _, h4, h5, h6⟩ := C69_fails_for_textual_suffix
  have e : verifyRRStream false (oPlatform true oAddress) 4 oAttack = some (.ok ⟨[wA "google.com."], 1000000000, 2000000000, 3600⟩) := by
    decide +kernel
  rw [e] at h2
  obtain rfl := Res.ok.inj (Option.some.inj h2)
  exact ⟨bs, _, h1, e, by decide +kernel, h4, h5, h6⟩

end Dnssec.Props
