import Verif.Spec.Answer
import Verif.Props.Honest
import Verif.Props.Resolve

/-! # C95: from the question to the answer -/

namespace Dnssec.Props

open Dnssec.Spec

variable {p : Platform} {w : World} {dbg : Bool} {name : Name} {ty : UInt16} {resolve : Bytes → Bytes}

theorem firstWith_of_unique {rrs : List RR} {P : RR → Prop} {r : RR} (hr : r ∈ rrs) (hp : P r) (hu : ∀ x ∈ rrs, P x → x = r) :
    FirstWith rrs P r := by
  classical
  induction rrs with
  | nil => simp at hr
  | cons a l ih =>
    by_cases h : P a
    · obtain rfl := hu a (by simp) h
      exact ⟨[], l, rfl, h, by simp⟩
    · rcases List.mem_cons.mp hr with rfl | hr
      · exact absurd hp h
      · obtain ⟨b, c, e, h1, h2⟩ := ih hr fun x hx => hu x (List.mem_cons_of_mem _ hx)
        refine ⟨a :: b, c, by rw [e]; rfl, h1, ?_⟩
        intro x hx
        rcases List.mem_cons.mp hx with rfl | hx
        · exact h
        · exact h2 x hx

/-- What `resolve_name` makes of the records of the answer. -/
theorem answer_resolved (hw : w.Signed p) (ha : w.PlainAliases name) {m : Name} (hl : w.Leads name m) (he : w.Ends m) {rrs : List RR}
    (hv : ∀ r, r ∈ rrs ↔ ∃ s ∈ w.answer, s.ty ≠ 47 ∧ s.ty ≠ 50 ∧ r ∈ s.records) :
    ∃ fuel l, resolveName rrs fuel name = some (.ok l) ∧
      ∀ r, r ∈ l ↔ ∃ s ∈ w.answer, s.owner = m ∧ s.ty ≠ 47 ∧ s.ty ≠ 50 ∧ r ∈ s.records := by
  have mem : ∀ s ∈ w.answer, ∀ r ∈ s.records, r.name = s.owner ∧ r.ty = s.ty := fun s hs =>
    (hw.wellFormed s (mem_worldSets.mpr (Or.inl hs))).members
  have same : ∀ s ∈ w.answer, ∀ t ∈ w.answer, s.owner = t.owner → s.ty = t.ty → s = t := fun s hs t ht =>
    distinct_eq hw.distinct (mem_worldSets.mpr (Or.inl hs)) (mem_worldSets.mpr (Or.inl ht))
  have cn : ∀ n r, r ∈ rrs → CnameAt n r → ∃ s ∈ w.answer, s.owner = n ∧ s.ty = 5 ∧ r ∈ s.records := by
    rintro n r hr ⟨c, rfl, hc⟩
    obtain ⟨s, hs, _, _, h⟩ := (hv _).mp hr
    have := mem s hs _ h
    exact ⟨s, hs, this.1.symm.trans hc, this.2.symm, h⟩
  have dn : ∀ n r, r ∈ rrs → DnameFor n r → ∃ s ∈ w.answer, ∃ d, r = .dname d ∧ RR.dname d ∈ s.records ∧ ∃ pre, n.bytes = pre ++ d.name.bytes := by
    rintro n r hr ⟨d, pre, rfl, hd⟩
    obtain ⟨s, hs, _, _, h⟩ := (hv _).mp hr
    exact ⟨s, hs, d, rfl, h, pre, hd⟩
  have hdn : ∀ s ∈ w.answer, ∀ d, RR.dname d ∈ s.records → RR.dname d ∈ rrs := by
    intro s hs d hd
    have h39 : s.ty = 39 := (mem s hs _ hd).2.symm
    exact (hv _).mpr ⟨s, hs, by rw [h39]; decide, by rw [h39]; decide, hd⟩
  have hchain : ∃ k, Spec.Chain rrs name k m := by
    clear he
    induction hl with
    | start => exact ⟨0, .nil⟩
    | step n n' hl h ih =>
      obtain ⟨k, ih⟩ := ih
      refine ⟨k + 1, .snoc ih ?_⟩
      cases h with
      | cname s c hs hn hr =>
        have hc := mem s hs (.cname c) (by rw [hr]; simp)
        have h5 : s.ty = 5 := hc.2.symm
        refine .cname c (firstWith_of_unique ((hv _).mpr ⟨s, hs, by rw [h5]; decide, by rw [h5]; decide, by rw [hr]; simp⟩)
          ⟨c, rfl, hc.1.trans hn⟩ ?_)
        intro x hx hxc
        obtain ⟨t, ht, t1, t2, t3⟩ := cn n x hx hxc
        rw [same t ht s hs (t1.trans hn.symm) (t2.trans h5.symm), hr] at t3
        simpa using t3
      | dname s d _ hc hs hd hdr =>
        obtain ⟨above, ds, ts, a1, a2, a3, a4, a5⟩ := hdr
        have htext : ∃ pre, n.bytes = pre ++ d.name.bytes := by
          rw [a2.bytes, a3.bytes]
          by_cases hds : ds = []
          · subst hds
            rw [List.append_nil]
            have : text above = (dotted above.dropLast ++ above.getLast a1) ++ [dot] := by
              conv => lhs; rw [← List.dropLast_concat_getLast a1, text_ne_nil (by simp)]
              simp [dotted]
            exact ⟨_, this⟩
          · refine ⟨dotted above, ?_⟩
            rw [text_ne_nil (by simp [hds]), text_ne_nil hds]; simp [dotted]
        obtain ⟨⟨ab, ds', ts', b1, b2, b3, b4, b5, b6⟩, hone⟩ := ha.dnames n hl s hs d hd htext
        obtain rfl := a3.unique b5
        obtain rfl := a4.unique b6
        have e : ∀ x y, y ≠ [] → text (x ++ y) = dotted x ++ text y := by
          intro x y hy
          rw [text_ne_nil (by simp [hy]), text_ne_nil hy]; simp [dotted]
        refine .dname d (dotted above) n' (fun r hr h => ?_) (firstWith_of_unique (hdn s hs d hd) ?_ ?_) ?_ ?_
        · obtain ⟨t, ht, t1, t2, _⟩ := cn n r hr h
          exact hc t ht ⟨t1, t2⟩
        · obtain ⟨pre, hp⟩ := htext
          exact ⟨d, pre, rfl, hp⟩
        · intro x hx hxd
          obtain ⟨t, ht, d', rfl, t1, t2⟩ := dn n x hx hxd
          rw [hone t ht d' t1 t2]
        · rw [a2.bytes, a3.bytes, e _ _ b2]
        · rw [a4.bytes, ← e _ _ b3]
          have h255 : (text (above ++ ts)).length ≤ 255 := by rw [← a5.bytes]; exact a5.short
          have := (tryFrom_denotes _ _).mp (tryFrom_text a5.labels h255)
          have e2 : n' = ⟨text (above ++ ts)⟩ := by cases n'; exact congrArg Name.mk a5.bytes
          rw [e2]; exact this
  obtain ⟨k, hk⟩ := hchain
  have hfin : Spec.Final rrs m (rrs.filter fun r => r.name = m) := by
    refine .records (fun r hr h => ?_) (fun r hr h => ?_)
    · obtain ⟨t, ht, t1, t2, _⟩ := cn m r hr h
      exact he.1 t ht ⟨t1, t2⟩
    · obtain ⟨t, ht, d, rfl, t1, t2⟩ := dn m r hr h
      obtain ⟨⟨ab, ds, _, b1, _, _, b4, b5, _⟩, _⟩ := ha.dnames m hl t ht d t1 t2
      exact b1 (he.2 t ht d t1 ab ds b5 b4)
  obtain ⟨fuel, hf⟩ := (C33_returns_iff (rrs := rrs) (n := name) (.ok (rrs.filter fun r => r.name = m))).mpr ⟨k, m, _, hk, hfin, rfl⟩
  refine ⟨fuel, _, hf, fun r => ?_⟩
  rw [List.mem_filter, hv]
  constructor
  · rintro ⟨⟨s, hs, h1, h2, h3⟩, h4⟩
    exact ⟨s, hs, by rw [← (mem s hs r h3).1]; simpa using h4, h1, h2, h3⟩
  · rintro ⟨s, hs, h0, h1, h2, h3⟩
    exact ⟨⟨s, hs, h1, h2, h3⟩, by simp [(mem s hs r h3).1, h0]⟩

/-- **C95.** From the question to the answer: in the worlds of C67, in whatever order the queries are answered, the proof that `finish_proof`
returns is parsed and verified, and `resolve_name` for the name asked for returns exactly the records at the name to which the aliases in
the answer lead (other than denials). Missing: what is missing from C67, and DNAMEs that the code applies to names not below
them, for which it is false (below). -/
theorem C95_question_answered_partial (hw : w.Signed p) (hk : w.AnsweredAnchoredFirst dbg p resolve) (hr : Honest dbg w name ty resolve) (h1 : w.zones ≠ [])
    (h4 : w.zones.length ≤ 4) {answered : List Bytes} {b : ProofBuilder} (h : Session dbg resolve name ty [] answered b)
    (ha : w.PlainAliases name) {m : Name} (hl : w.Leads name m) (he : w.Ends m) :
    ∃ proof ttl inp, b.finish = some (proof, ttl) ∧ (∀ dbg', parseRRStream dbg' proof = .ok inp) ∧
      ∀ dbg', ∃ fuel v, verifyRRStream dbg' p fuel inp = some (.ok v) ∧ ∃ f l, resolveName v.verifiedRrs f name = some (.ok l) ∧
        ∀ r, r ∈ l ↔ ∃ s ∈ w.answer, s.owner = m ∧ s.ty ≠ 47 ∧ s.ty ≠ 50 ∧ r ∈ s.records := by
  obtain ⟨_, _, _, hfin⟩ := C67_build_then_verify_partial hw hk hr h1 h4 h
  obtain ⟨proof, ttl, inp, f1, f2, f3⟩ := hfin rfl
  refine ⟨proof, ttl, inp, f1, f2, fun dbg' => ?_⟩
  obtain ⟨fuel, v, g1, g2⟩ := f3 dbg'
  exact ⟨fuel, v, g1, answer_resolved hw ha hl he g2⟩

/-- **C95.** And for the driver, over a stream with a peer that answers in order. -/
theorem C95_driver_partial (hw : w.Signed p) (hk : w.AnsweredAnchoredFirst dbg p resolve) (hr : Honest dbg w name ty resolve) (h1 : w.zones ≠ [])
    (h4 : w.zones.length ≤ 4) (hn : Obtainable name) (hlen : ∀ q, (resolve q).length ≤ 65535)
    (ha : w.PlainAliases name) {m : Name} (hl : w.Leads name m) (he : w.Ends m) :
    ∃ (queries : List Bytes) (proof : Bytes) (ttl : UInt32) (inp : List RR),
      (∀ rest sent writes, buildProof dbg queries.length
        ⟨((queries.map resolve).map frame).flatten ++ rest, 2 * queries.length + writes, sent⟩ name ty =
        some (⟨rest, writes, sent ++ (queries.map frame).flatten⟩, .ok (proof, ttl))) ∧
      (∀ dbg', parseRRStream dbg' proof = .ok inp) ∧
      ∀ dbg', ∃ fuel v, verifyRRStream dbg' p fuel inp = some (.ok v) ∧ ∃ f l, resolveName v.verifiedRrs f name = some (.ok l) ∧
        ∀ r, r ∈ l ↔ ∃ s ∈ w.answer, s.owner = m ∧ s.ty ≠ 47 ∧ s.ty ≠ 50 ∧ r ∈ s.records := by
  obtain ⟨queries, proof, ttl, inp, f1, f2, f3⟩ := C67_driver_partial hw hk hr h1 h4 hn hlen
  refine ⟨queries, proof, ttl, inp, f1, f2, fun dbg' => ?_⟩
  obtain ⟨fuel, v, g1, g2⟩ := f3 dbg'
  exact ⟨fuel, v, g1, answer_resolved hw ha hl he g2⟩

/-! ### A zone with a CNAME and a DNAME -/

/-- `w.c.` is an alias of `x.d.c.`; `d.c.` has been renamed to `t`. -/
def aliasWorld (t xt : String) : World :=
  ⟨[autoSet "w.c." 5 2 "c." (wCname "w.c." "x.d.c."), autoSet "d.c." 39 2 "c." (wDname "d.c." t), autoSet xt 1 3 "c." (wA xt)],
    autoSet "." 48 0 "." (wKey "."), [autoZone "." "c." 1]⟩

/-- A resolver for it; with the answer it sends the CNAME made up from the DNAME (RFC 6672 3.1), which is not signed. -/
def aliasResolve (t xt : String) (q : Bytes) : Bytes :=
  if q = queryMessage (nameWire (ascii "w.c.")) 1 then
    exReply "w.c." 1 ((aliasWorld t xt).answer.flatMap SignedSet.all ++ [wCname "x.d.c." xt]) []
  else tableResolve [(".", 48, autoSet "." 48 0 "." (wKey ".")), ("c.", 48, (autoZone "." "c." 1).keys), ("c.", 43, (autoZone "." "c." 1).ds)] q

theorem wCname_encodable {n t : String} (h : ∃ ls, HasLabels ⟨ascii n⟩ ls) (ht : ∃ ls, HasLabels ⟨ascii t⟩ ls) : Encodable (wCname n t) := by
  refine ⟨h, by simpa [wCname, rdataNames] using ht, by intro t h; simp [wCname] at h, ?_, by intro t h; simp [wCname] at h⟩
  obtain ⟨ls, h⟩ := ht
  show (rdata (.cname ⟨⟨ascii n⟩, ⟨ascii t⟩⟩)).length ≤ 65535
  rw [rdata_cname]
  have h1 := writeName_length_le (ascii t)
  have h2 := h.short
  simp only at h1 h2 ⊢
  omega

theorem wDname_encodable {n t : String} (h : ∃ ls, HasLabels ⟨ascii n⟩ ls) (ht : ∃ ls, HasLabels ⟨ascii t⟩ ls) : Encodable (wDname n t) := by
  refine ⟨h, by simpa [wDname, rdataNames] using ht, by intro t h; simp [wDname] at h, ?_, by intro t h; simp [wDname] at h⟩
  obtain ⟨ls, h⟩ := ht
  show (rdata (.dname ⟨⟨ascii n⟩, ⟨ascii t⟩⟩)).length ≤ 65535
  rw [rdata_dname]
  have h1 := writeName_length_le (ascii t)
  have h2 := h.short
  simp only at h1 h2 ⊢
  omega

section

variable {t xt : String} (ht : t = "e.c." ∧ xt = "x.e.c." ∨ t = "ad.c." ∧ xt = "x.ad.c.")
include ht

theorem aliasWorld_encodable : ∀ r ∈ (aliasWorld t xt).records, Encodable r := by
  have h0 : ∃ ls, HasLabels ⟨ascii "."⟩ ls := ⟨[], by decide⟩
  have h1 : ∃ ls, HasLabels ⟨ascii "c."⟩ ls := ⟨[ascii "c"], by decide⟩
  have h2 : ∃ ls, HasLabels ⟨ascii "w.c."⟩ ls := ⟨[ascii "w", ascii "c"], by decide⟩
  have h3 : ∃ ls, HasLabels ⟨ascii "d.c."⟩ ls := ⟨[ascii "d", ascii "c"], by decide⟩
  have h4 : ∃ ls, HasLabels ⟨ascii "x.d.c."⟩ ls := ⟨[ascii "x", ascii "d", ascii "c"], by decide⟩
  have h5 : ∃ ls, HasLabels ⟨ascii t⟩ ls := by
    rcases ht with ⟨rfl, rfl⟩ | ⟨rfl, rfl⟩
    · exact ⟨[ascii "e", ascii "c"], by decide⟩
    · exact ⟨[ascii "ad", ascii "c"], by decide⟩
  have h6 : ∃ ls, HasLabels ⟨ascii xt⟩ ls := by
    rcases ht with ⟨rfl, rfl⟩ | ⟨rfl, rfl⟩
    · exact ⟨[ascii "x", ascii "e", ascii "c"], by decide⟩
    · exact ⟨[ascii "x", ascii "ad", ascii "c"], by decide⟩
  intro r hr
  obtain ⟨s, hs, hr⟩ := List.mem_flatMap.mp hr
  simp only [aliasWorld, World.sets, autoZone, List.flatMap_cons, List.flatMap_nil, List.cons_append, List.nil_append, List.mem_cons,
    List.not_mem_nil, or_false] at hs
  rcases hs with rfl | rfl | rfl | rfl | rfl | rfl
  · exact autoSet_encodable h2 h1 (wCname_encodable h2 h4) r hr
  · exact autoSet_encodable h3 h1 (wDname_encodable h3 h5) r hr
  · exact autoSet_encodable h6 h1 (wA_encodable h6) r hr
  · exact autoSet_encodable h0 h0 (wKey_encodable h0) r hr
  · exact autoSet_encodable h1 h1 (wKey_encodable h1) r hr
  · exact autoSet_encodable h1 h0 (wDs_encodable h1) r hr

theorem aliasWorld_signed : (aliasWorld t xt).Signed lenPlatform := by
  have he := aliasWorld_encodable ht
  have a : (aliasWorld t xt).Needs ⟨ascii "c."⟩ :=
    World.Needs.answer (w := aliasWorld t xt) (autoSet "w.c." 5 2 "c." (wCname "w.c." "x.d.c.")) _ (by simp [aliasWorld]) (List.mem_singleton.mpr rfl)
  have b : (aliasWorld t xt).Needs rootName :=
    World.Needs.parent (w := aliasWorld t xt) (autoZone "." "c." 1) _ (by simp [aliasWorld]) a (List.mem_singleton.mpr rfl)
  have c : ∀ z ∈ (aliasWorld t xt).zones, (aliasWorld t xt).Needs z.keys.owner := by
    intro z hz
    have hz : z = autoZone "." "c." 1 := by simpa [aliasWorld] using hz
    subst hz
    exact a
  rcases ht with ⟨rfl, rfl⟩ | ⟨rfl, rfl⟩
  · exact signed_of_check _ _ (by decide +kernel) (by decide +kernel) (by decide +kernel) (by decide +kernel) (by decide +kernel)
      (by decide +kernel) (by decide +kernel) ⟨b, c⟩ (by decide +kernel) (noWildcards (by decide +kernel)) he
  · exact signed_of_check _ _ (by decide +kernel) (by decide +kernel) (by decide +kernel) (by decide +kernel) (by decide +kernel)
      (by decide +kernel) (by decide +kernel) ⟨b, c⟩ (by decide +kernel) (noWildcards (by decide +kernel)) he

theorem aliasWorld_anchored : (aliasWorld t xt).KeySetsByAnchored lenPlatform := by
  have h := aliasWorld_signed ht
  rcases ht with ⟨rfl, rfl⟩ | ⟨rfl, rfl⟩
  · exact anchored_of_check _ _ h (by decide +kernel)
  · exact anchored_of_check _ _ h (by decide +kernel)

theorem aliasWorld_honest (dbg : Bool) : Honest dbg (aliasWorld t xt) ⟨ascii "w.c."⟩ 1 (aliasResolve t xt) := by
  have h0 : ∃ ls, HasLabels ⟨ascii "."⟩ ls := ⟨[], by decide⟩
  have h1 : ∃ ls, HasLabels ⟨ascii "c."⟩ ls := ⟨[ascii "c"], by decide⟩
  have h2 : ∃ ls, HasLabels ⟨ascii "w.c."⟩ ls := ⟨[ascii "w", ascii "c"], by decide⟩
  have h4 : ∃ ls, HasLabels ⟨ascii "x.d.c."⟩ ls := ⟨[ascii "x", ascii "d", ascii "c"], by decide⟩
  have h6 : ∃ ls, HasLabels ⟨ascii xt⟩ ls := by
    rcases ht with ⟨rfl, rfl⟩ | ⟨rfl, rfl⟩
    · exact ⟨[ascii "x", ascii "e", ascii "c"], by decide⟩
    · exact ⟨[ascii "x", ascii "ad", ascii "c"], by decide⟩
  have he := aliasWorld_encodable ht
  have hx : Encodable (wCname "x.d.c." xt) := wCname_encodable h4 h6
  refine ⟨⟨[wCname "x.d.c." xt], ?_, ?_⟩, ?_, ?_, ?_⟩
  · intro r hr
    obtain rfl := List.mem_singleton.mp hr
    refine ⟨by show (5 : UInt16) ≠ 46; decide, hx, ?_⟩
    rcases ht with ⟨rfl, rfl⟩ | ⟨rfl, rfl⟩ <;> decide +kernel
  · have := exReply_gives (dbg := dbg) (qname := "w.c.") (qtype := 1) (authority := [])
      (answers := (aliasWorld t xt).answer.flatMap SignedSet.all ++ [wCname "x.d.c." xt]) h2 (by simp) (by simp [aliasWorld, SignedSet.all, autoSet])
      (by simp) ?_ (by simp)
    · rw [List.append_nil] at this
      simpa [aliasResolve] using this
    · intro r hr
      rw [List.append_nil] at hr
      rcases List.mem_append.mp hr with hr | hr
      · obtain ⟨s, hs, hr⟩ := List.mem_flatMap.mp hr
        exact he r (List.mem_flatMap.mpr ⟨s, mem_worldSets.mpr (Or.inl hs), hr⟩)
      · obtain rfl := List.mem_singleton.mp hr
        exact hx
  · unfold aliasResolve
    rw [if_neg (by decide +kernel)]
    exact autoSet_gives "." "." 48 0 (wKey ".") h0 h0 (wKey_encodable h0) rfl rfl (by decide +kernel)
  · intro z hz
    have hz : z = autoZone "." "c." 1 := by simpa [aliasWorld] using hz
    subst hz
    unfold aliasResolve
    rw [if_neg (by decide +kernel)]
    exact autoSet_gives "c." "c." 48 1 (wKey "c.") h1 h1 (wKey_encodable h1) rfl rfl (by decide +kernel)
  · intro z hz
    have hz : z = autoZone "." "c." 1 := by simpa [aliasWorld] using hz
    subst hz
    unfold aliasResolve
    rw [if_neg (by decide +kernel)]
    exact autoSet_gives "c." "." 43 1 (wDs "c.") h1 h0 (wDs_encodable h1) rfl rfl (by decide +kernel)

/-- The aliases lead to where `x.d.c.` has moved. -/
theorem aliasWorld_leads : (aliasWorld t xt).Leads ⟨ascii "w.c."⟩ ⟨ascii xt⟩ := by
  refine .step ⟨ascii "x.d.c."⟩ _ (.step ⟨ascii "w.c."⟩ _ .start (.cname (autoSet "w.c." 5 2 "c." (wCname "w.c." "x.d.c."))
    ⟨⟨ascii "w.c."⟩, ⟨ascii "x.d.c."⟩⟩ (by simp [aliasWorld]) rfl rfl)) ?_
  refine .dname (autoSet "d.c." 39 2 "c." (wDname "d.c." t)) ⟨⟨ascii "d.c."⟩, ⟨ascii t⟩⟩ _ ?_ (by simp [aliasWorld]) (by simp [autoSet, wDname]) ?_
  · rcases ht with ⟨rfl, rfl⟩ | ⟨rfl, rfl⟩ <;> decide +kernel
  · rcases ht with ⟨rfl, rfl⟩ | ⟨rfl, rfl⟩
    · exact ⟨[ascii "x"], [ascii "d", ascii "c"], [ascii "e", ascii "c"], by decide, by decide, by decide, by decide, by decide⟩
    · exact ⟨[ascii "x"], [ascii "d", ascii "c"], [ascii "ad", ascii "c"], by decide, by decide, by decide, by decide, by decide⟩

omit ht in
theorem aliasWorld_dname {s : SignedSet} (hs : s ∈ (aliasWorld t xt).answer) {d : DName} (hd : RR.dname d ∈ s.records) :
    d = ⟨⟨ascii "d.c."⟩, ⟨ascii t⟩⟩ := by
  simp only [aliasWorld, List.mem_cons, List.not_mem_nil, or_false] at hs
  rcases hs with rfl | rfl | rfl <;> simp [autoSet, wCname, wDname, wA] at hd
  exact hd

theorem aliasWorld_ends : (aliasWorld t xt).Ends ⟨ascii xt⟩ := by
  refine ⟨by rcases ht with ⟨rfl, rfl⟩ | ⟨rfl, rfl⟩ <;> decide +kernel, ?_⟩
  intro s hs d hd above ds h1 h2
  obtain rfl := aliasWorld_dname hs hd
  have e1 := h1.unique (ms := [ascii "d", ascii "c"]) (show HasLabels ⟨ascii "d.c."⟩ _ by decide)
  subst e1
  rcases ht with ⟨rfl, rfl⟩ | ⟨rfl, rfl⟩
  · have e2 := h2.unique (ms := [ascii "x", ascii "e", ascii "c"]) (by decide)
    match above with
    | [] => rfl
    | [a] => exact absurd (congrArg (·.drop 1) e2) (by simp; decide)
    | a :: b :: l => simpa using congrArg List.length e2
  · have e2 := h2.unique (ms := [ascii "x", ascii "ad", ascii "c"]) (by decide)
    match above with
    | [] => rfl
    | [a] => exact absurd (congrArg (·.drop 1) e2) (by simp; decide)
    | a :: b :: l => simpa using congrArg List.length e2

end

theorem aliasWorld_reached {m : Name} (h : (aliasWorld "e.c." "x.e.c.").Leads ⟨ascii "w.c."⟩ m) :
    m = ⟨ascii "w.c."⟩ ∨ m = ⟨ascii "x.d.c."⟩ ∨ m = ⟨ascii "x.e.c."⟩ := by
  induction h with
  | start => exact Or.inl rfl
  | step n n' _ hr ih =>
    cases hr with
    | cname s c hs hn hc =>
      simp only [aliasWorld, List.mem_cons, List.not_mem_nil, or_false] at hs
      rcases hs with rfl | rfl | rfl <;> simp [autoSet, wCname, wDname, wA] at hc
      subst hc
      exact Or.inr (Or.inl rfl)
    | dname s d _ _ hs hd hdr =>
      obtain rfl := aliasWorld_dname hs hd
      obtain ⟨above, ds, ts, a1, a2, a3, a4, a5⟩ := hdr
      obtain rfl := a3.unique (ms := [ascii "d", ascii "c"]) (show HasLabels ⟨ascii "d.c."⟩ _ by decide)
      obtain rfl := a4.unique (ms := [ascii "e", ascii "c"]) (show HasLabels ⟨ascii "e.c."⟩ _ by decide)
      match above, a1 with
      | [a], _ =>
        rcases ih with rfl | rfl | rfl
        · have := a2.unique (ms := [ascii "w", ascii "c"]) (by decide)
          simp at this
        · have := a2.unique (ms := [ascii "x", ascii "d", ascii "c"]) (by decide)
          simp only [List.cons_append, List.nil_append, List.cons.injEq, and_true] at this
          subst this
          refine Or.inr (Or.inr ?_)
          cases n'
          exact congrArg Name.mk a5.bytes
        · have := a2.unique (ms := [ascii "x", ascii "e", ascii "c"]) (by decide)
          exact absurd (congrArg (·.drop 1) this) (by simp; decide)
      | a :: b :: l, _ =>
        rcases ih with rfl | rfl | rfl
        · have := congrArg List.length (a2.unique (ms := [ascii "w", ascii "c"]) (by decide))
          simp at this
        · have := congrArg List.length (a2.unique (ms := [ascii "x", ascii "d", ascii "c"]) (by decide))
          simp at this
        · have := congrArg List.length (a2.unique (ms := [ascii "x", ascii "e", ascii "c"]) (by decide))
          simp at this

theorem aliasWorld_plain : (aliasWorld "e.c." "x.e.c.").PlainAliases ⟨ascii "w.c."⟩ := by
  refine ⟨?_, ?_⟩
  · intro s hs _
    simp only [aliasWorld, List.mem_cons, List.not_mem_nil, or_false] at hs
    rcases hs with rfl | rfl | rfl <;> exact ⟨_, rfl⟩
  · intro m hm s hs d hd ⟨pre, hp⟩
    obtain rfl := aliasWorld_dname hs hd
    refine ⟨?_, fun s' hs' d' hd' _ => aliasWorld_dname hs' hd'⟩
    have hsuf : ascii "d.c." <:+ m.bytes := ⟨pre, hp.symm⟩
    rcases aliasWorld_reached hm with rfl | rfl | rfl
    · exact absurd hsuf (by decide)
    · exact ⟨[ascii "x"], [ascii "d", ascii "c"], [ascii "e", ascii "c"], by decide, by decide, by decide, by decide, by decide, by decide⟩
    · exact absurd hsuf (by decide)

/-- A case of C95: from the question for `w.c.`, through both aliases, to the address of `x.e.c.`. -/
example : ∃ answered b proof ttl inp fuel v f l, Session true (aliasResolve "e.c." "x.e.c.") ⟨ascii "w.c."⟩ 1 [] answered b ∧
    b.finish = some (proof, ttl) ∧ parseRRStream false proof = .ok inp ∧ verifyRRStream false lenPlatform fuel inp = some (.ok v) ∧
    resolveName v.verifiedRrs f ⟨ascii "w.c."⟩ = some (.ok l) ∧ ∀ r, r ∈ l ↔ r = wA "x.e.c." := by
  have ht : "e.c." = "e.c." ∧ "x.e.c." = "x.e.c." ∨ "e.c." = "ad.c." ∧ "x.e.c." = "x.ad.c." := Or.inl ⟨rfl, rfl⟩
  have hs := aliasWorld_signed ht
  have hh := aliasWorld_honest ht true
  obtain ⟨ans, b, hb, _⟩ := session_fifo hs hh (by decide) 10 _ [] _ (by simp) .new .new
  obtain ⟨proof, ttl, inp, h1, h2, h3⟩ := C95_question_answered_partial hs (answeredFirst hs hh (aliasWorld_anchored ht)) hh (by simp [aliasWorld]) (by decide) hb
    aliasWorld_plain (aliasWorld_leads ht) (aliasWorld_ends ht)
  obtain ⟨fuel, v, h4, f, l, h5, h6⟩ := h3 false
  refine ⟨ans, b, proof, ttl, inp, fuel, v, f, l, hb, h1, h2 false, h4, h5, fun r => (h6 r).trans ?_⟩
  constructor
  · rintro ⟨s, hs, ho, _, _, hr⟩
    simp only [aliasWorld, List.mem_cons, List.not_mem_nil, or_false] at hs
    rcases hs with rfl | rfl | rfl
    · exact absurd ho (by decide)
    · exact absurd ho (by decide)
    · simpa [autoSet] using hr
  · rintro rfl
    exact ⟨autoSet "x.e.c." 1 3 "c." (wA "x.e.c."), by simp [aliasWorld], rfl, by decide, by decide, by simp [autoSet]⟩

/-- Where there is at most one CNAME and one DNAME, the order of the records does not matter for where the aliases lead. -/
theorem chain_reordered {L rrs : List RR} (h : ∀ r, r ∈ rrs ↔ r ∈ L) (hc : ∀ c c', RR.cname c ∈ L → RR.cname c' ∈ L → c = c')
    (hd : ∀ d d', RR.dname d ∈ L → RR.dname d' ∈ L → d = d') {n m : Name} {k : Nat} (hk : Spec.Chain L n k m) : Spec.Chain rrs n k m := by
  have fd : ∀ {m d}, FirstWith L (DnameFor m) (.dname d) → FirstWith rrs (DnameFor m) (.dname d) := by
    rintro m d ⟨x, y, e, g, _⟩
    have hm : RR.dname d ∈ L := by rw [e]; simp
    refine firstWith_of_unique ((h _).mpr hm) g ?_
    rintro _ hx ⟨d', _, rfl, _⟩
    rw [hd d' d ((h _).mp hx) hm]
  induction hk with
  | nil => exact .nil
  | snoc _ ha ih =>
    refine .snoc ih ?_
    cases ha with
    | cname c hf =>
      obtain ⟨x, y, e, g, _⟩ := hf
      have hm : RR.cname c ∈ L := by rw [e]; simp
      refine .cname c (firstWith_of_unique ((h _).mpr hm) g ?_)
      rintro _ hx ⟨c', rfl, _⟩
      rw [hc c' c ((h _).mp hx) hm]
    | dname d pre m h1 h2 h3 h4 => exact .dname d pre _ (fun r hr => h1 r ((h r).mp hr)) (fd h2) h3 h4

theorem final_reordered {L rrs : List RR} (h : ∀ r, r ∈ rrs ↔ r ∈ L) (hd : ∀ d d', RR.dname d ∈ L → RR.dname d' ∈ L → d = d')
    {m : Name} {l : List RR} (hf : Spec.Final L m l) (hl : l = []) : Spec.Final rrs m [] := by
  cases hf with
  | records h1 h2 =>
    have : rrs.filter (fun r => r.name = m) = [] := by
      rw [List.filter_eq_nil_iff]
      intro r hr
      exact List.filter_eq_nil_iff.mp hl r ((h r).mp hr)
    rw [← this]
    exact .records (fun r hr => h1 r ((h r).mp hr)) (fun r hr => h2 r ((h r).mp hr))
  | invalid d pre h1 h2 h3 h4 =>
    obtain ⟨x, y, e, g, _⟩ := h2
    have hm : RR.dname d ∈ L := by rw [e]; simp
    refine .invalid d pre (fun r hr => h1 r ((h r).mp hr)) (firstWith_of_unique ((h _).mpr hm) g ?_) h3 h4
    rintro _ hx ⟨d', _, rfl, _⟩
    rw [hd d' d ((h _).mp hx) hm]

/-- **C95 is false** when a name is moved to one that ends in the same text: `d.c.` has moved to `ad.c.`, so the aliases lead from `w.c.` to
`x.ad.c.`, whose address is in the proof, signed and verified. But as text `x.ad.c.` ends in `d.c.`, so `resolve_name` applies the DNAME
again, to `x.aad.c.`, `x.aaad.c.` and so on until that is no longer a name; then it returns nothing. -/
theorem C95_fails_for_longer_name : ∃ (p : Platform) (w : World) (name : Name) (resolve : Bytes → Bytes) (m : Name),
    w.Signed p ∧ w.KeySetsByAnchored p ∧ (∀ dbg, Honest dbg w name 1 resolve) ∧ w.zones ≠ [] ∧ w.zones.length ≤ 4 ∧
    w.Leads name m ∧ w.Ends m ∧ (∃ s ∈ w.answer, s.owner = m ∧ s.ty = 1) ∧
    (∃ answered b, Session true resolve name 1 [] answered b) ∧
    ∀ dbg answered b, Session dbg resolve name 1 [] answered b → ∃ proof ttl inp, b.finish = some (proof, ttl) ∧
      (∀ dbg', parseRRStream dbg' proof = .ok inp) ∧ ∀ dbg', ∃ fuel v, verifyRRStream dbg' p fuel inp = some (.ok v) ∧
        (∃ r ∈ v.verifiedRrs, r.name = m) ∧ ∃ f, resolveName v.verifiedRrs f name = some (.ok []) := by
  have ht : "ad.c." = "e.c." ∧ "x.ad.c." = "x.e.c." ∨ "ad.c." = "ad.c." ∧ "x.ad.c." = "x.ad.c." := Or.inr ⟨rfl, rfl⟩
  have hs := aliasWorld_signed ht
  have hh := aliasWorld_honest ht
  refine ⟨lenPlatform, aliasWorld "ad.c." "x.ad.c.", ⟨ascii "w.c."⟩, aliasResolve "ad.c." "x.ad.c.", ⟨ascii "x.ad.c."⟩, hs, aliasWorld_anchored ht, hh,
    by simp [aliasWorld], by decide, aliasWorld_leads ht, aliasWorld_ends ht, ⟨_, by simp [aliasWorld]; exact Or.inr (Or.inr rfl), rfl, rfl⟩, ?_, ?_⟩
  · obtain ⟨ans, b, hb, _⟩ := session_fifo hs (hh true) (by decide) 10 _ [] _ (by simp) .new .new
    exact ⟨ans, b, hb⟩
  · intro dbg ans b hb
    obtain ⟨_, _, _, hfin⟩ := C67_build_then_verify_partial hs (answeredFirst hs (hh dbg) (aliasWorld_anchored ht)) (hh dbg) (by simp [aliasWorld]) (by decide) hb
    obtain ⟨proof, ttl, inp, f1, f2, f3⟩ := hfin rfl
    refine ⟨proof, ttl, inp, f1, f2, fun dbg' => ?_⟩
    obtain ⟨fuel, v, g1, g2⟩ := f3 dbg'
    have hv : ∀ r, r ∈ v.verifiedRrs ↔ r ∈ [wCname "w.c." "x.d.c.", wDname "d.c." "ad.c.", wA "x.ad.c."] := by
      intro r
      rw [g2]
      simp [aliasWorld, autoSet]
    refine ⟨fuel, v, g1, ⟨wA "x.ad.c.", (hv _).mpr (by simp), rfl⟩, ?_⟩
    have hL : resolveName [wCname "w.c." "x.d.c.", wDname "d.c." "ad.c.", wA "x.ad.c."] 70 ⟨ascii "w.c."⟩ = some (.ok []) := by decide +kernel
    obtain ⟨k, m, l, hk, hf, hl⟩ := (C33_returns_iff _).mp ⟨_, hL⟩
    obtain rfl : [] = l := by simpa using hl
    refine (C33_returns_iff _).mpr ⟨k, m, [], chain_reordered hv ?_ ?_ hk, ?_, rfl⟩
    · intro c c' h1 h2
      simp [wCname, wDname, wA] at h1 h2
      rw [h1, h2]
    · intro c c' h1 h2
      simp [wCname, wDname, wA] at h1 h2
      rw [h1, h2]
    · refine final_reordered hv ?_ hf rfl
      intro c c' h1 h2
      simp [wCname, wDname, wA] at h1 h2
      rw [h1, h2]

end Dnssec.Props
