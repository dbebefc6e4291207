import Verif.Props.Honest

/-! # C85: does a proof answer the question? -/

namespace Dnssec.Props

open Dnssec Spec

variable {p : Platform} {w : World} {dbg : Bool} {name other : Name} {ty oty : UInt16} {resolve : Bytes → Bytes}

/-- A resolver behind someone who answers the query `q` with the response to the query `q'` and relays everything else. -/
def misdirect (resolve : Bytes → Bytes) (q q' : Bytes) : Bytes → Bytes := fun x => if x = q then resolve q' else resolve x

/-- **C85 is false**, for every question: responses are not compared with queries. If someone gives a builder for `name` and `ty` the response to
another question in place of the answer, and relays everything else, the session goes on as it would have for the other question and ends with the same proof.
(As long as the question for `name` and `ty` does not itself come up on the way.) -/
theorem C85_fails_other_question {outstanding answered : List Bytes} {b : ProofBuilder}
    (h : Session dbg resolve other oty outstanding answered b) (hans : answered ≠ []) (hq : (ProofBuilder.new name ty).2 ∉ answered) :
    ∃ answered', Session dbg (misdirect resolve (ProofBuilder.new name ty).2 (ProofBuilder.new other oty).2) name ty
      outstanding answered' b := by
  induction h with
  | new => exact absurd rfl hans
  | @respond before after answered more q b b' hs hp ih =>
    simp only [List.mem_append, List.mem_singleton, not_or] at hq
    by_cases ha : answered = []
    · subst ha
      generalize hout : before ++ q :: after = out at hs
      generalize hans' : ([] : List Bytes) = ans at hs
      cases hs with
      | respond _ _ => exact absurd hans' (by simp)
      | new =>
        have hb : before = [] ∧ q = (ProofBuilder.new other oty).2 ∧ after = [] := by
          cases before with
          | nil => simpa using hout
          | cons x xs => simp at hout
        obtain ⟨rfl, rfl, rfl⟩ := hb
        refine ⟨_, .respond (before := []) (after := []) (q := (ProofBuilder.new name ty).2) .new ?_⟩
        unfold misdirect
        rw [if_pos rfl]
        exact hp
    · obtain ⟨answered', h'⟩ := ih ha hq.1
      refine ⟨_, .respond h' ?_⟩
      unfold misdirect
      rw [if_neg (fun e => hq.2 e.symm)]
      exact hp

/-- Every query answered in a session had a response that was accepted. -/
theorem session_accepted {outstanding answered : List Bytes} {b : ProofBuilder} (h : Session dbg resolve name ty outstanding answered b) :
    ∀ q ∈ answered, ∃ (b b' : ProofBuilder) (more : List Bytes), b.processResponse dbg (resolve q) = (b', .ok more) := by
  induction h with
  | new => simp
  | @respond before after answered more q b b' hs hp ih =>
    intro x hx
    rcases List.mem_append.mp hx with hx | hx
    · exact ih x hx
    · rw [List.mem_singleton.mp hx]
      exact ⟨b, b', more, hp⟩

theorem session_unanswered {outstanding : List Bytes} {b : ProofBuilder} (h : Session dbg resolve name ty outstanding [] b) :
    outstanding = [(ProofBuilder.new name ty).2] := by
  generalize hans : ([] : List Bytes) = ans at h
  cases h with
  | new => rfl
  | respond _ _ => exact absurd hans (by simp)

/-- **C85 is false**: asked for the text records of `w.c.`, with the answer to the question for the address of `x.c.` in place of the answer, the builder finishes with
a proof that verifies, and contains nothing but the address of `x.c.`. -/
theorem C85_fails_for_example : ∃ proof ttl inp v,
    (∃ answered b, Session true (misdirect exResolve (ProofBuilder.new ⟨ascii "w.c."⟩ 16).2 (ProofBuilder.new ⟨ascii "x.c."⟩ 1).2) ⟨ascii "w.c."⟩ 16 []
      answered b ∧ b.finish = some (proof, ttl)) ∧
    parseRRStream false proof = .ok inp ∧ (∃ fuel, verifyRRStream false lenPlatform fuel inp = some (.ok v)) ∧
    ∀ r, r ∈ v.verifiedRrs ↔ r = wA "x.c." := by
  obtain ⟨ans, b, hs, _⟩ := session_fifo exSigned (exHonest true) (by decide) 10 _ [] _ (by simp) .new .new
  obtain ⟨_, _, _, h⟩ := C67_build_then_verify_partial exSigned (answeredFirst exSigned (exHonest true) exAnchored) (exHonest true) (by simp [exWorld]) (by decide) hs
  obtain ⟨proof, ttl, inp, h1, h2, h3⟩ := h rfl
  obtain ⟨fuel, v, h4, h5⟩ := h3 false
  have hne : ans ≠ [] := by
    rintro rfl
    exact absurd (session_unanswered hs) (by simp)
  have hq : (ProofBuilder.new ⟨ascii "w.c."⟩ 16).2 ∉ ans := by
    intro hm
    obtain ⟨b, b', more, hp⟩ := session_accepted hs _ hm
    have he : exResolve (ProofBuilder.new ⟨ascii "w.c."⟩ 16).2 = [] := by decide +kernel
    rw [he] at hp
    have hr : ∀ proof, handleResponse true [] proof [] = ((proof, []), .err ()) := fun _ => rfl
    unfold ProofBuilder.processResponse at hp
    rw [hr] at hp
    split at hp <;> simp at hp
  obtain ⟨ans', hs'⟩ := C85_fails_other_question (name := ⟨ascii "w.c."⟩) (ty := 16) hs hne hq
  refine ⟨proof, ttl, inp, v, ⟨ans', b, hs', h1⟩, h2 false, ⟨fuel, h4⟩, fun r => (h5 r).trans ?_⟩
  constructor
  · rintro ⟨s, hs, a, _, hr⟩
    simp only [exWorld, List.mem_cons, List.not_mem_nil, or_false] at hs
    rcases hs with rfl | rfl
    · simpa [lA] using hr
    · exact absurd rfl a
  · rintro rfl
    exact ⟨lA, by simp [exWorld], by decide, by decide, by simp [lA]⟩

/-- **C85 (partial).** With a resolver that answers every query with the answer to it, the records at the name and of the type asked for are verified.
Missing: resolvers that do not, and the cases in which C67 is false. -/
theorem C85_answers_partial (hw : w.Signed p) (hk : w.AnsweredAnchoredFirst dbg p resolve) (hr : Honest dbg w name ty resolve) (h1 : w.zones ≠ []) (h4 : w.zones.length ≤ 4)
    (hty : ty ≠ 47 ∧ ty ≠ 50) (s : SignedSet) (hs : s ∈ w.answer) (hn : s.owner = name) (ht : s.ty = ty) {answered : List Bytes} {b : ProofBuilder}
    (h : Session dbg resolve name ty [] answered b) :
    ∃ proof ttl inp, b.finish = some (proof, ttl) ∧ (∀ dbg', parseRRStream dbg' proof = .ok inp) ∧
      ∀ dbg', ∃ fuel v, verifyRRStream dbg' p fuel inp = some (.ok v) ∧
        ∀ r, r ∈ s.records ↔ r ∈ v.verifiedRrs ∧ r.name = name ∧ r.ty = ty := by
  obtain ⟨_, _, _, h⟩ := C67_build_then_verify_partial hw hk hr h1 h4 h
  obtain ⟨proof, ttl, inp, f1, f2, f3⟩ := h rfl
  refine ⟨proof, ttl, inp, f1, f2, fun dbg' => ?_⟩
  obtain ⟨fuel, v, g1, g2⟩ := f3 dbg'
  refine ⟨fuel, v, g1, fun r => ?_⟩
  have hmem : ∀ t ∈ w.answer, t ∈ w.sets := fun t ht => by simp [World.sets, ht]
  constructor
  · intro hr'
    obtain ⟨a, b⟩ := (hw.wellFormed s (hmem s hs)).members r hr'
    exact ⟨(g2 r).mpr ⟨s, hs, ht ▸ hty.1, ht ▸ hty.2, hr'⟩, a.trans hn, b.trans ht⟩
  · rintro ⟨a, b, c⟩
    obtain ⟨t, ht', _, _, hr'⟩ := (g2 r).mp a
    obtain ⟨d, e⟩ := (hw.wellFormed t (hmem t ht')).members r hr'
    have hsame : t = s := distinct_eq hw.distinct (hmem t ht') (hmem s hs) ((d.symm.trans b).trans hn.symm) ((e.symm.trans c).trans ht.symm)
    rw [← hsame]
    exact hr'

/-- Met by the example world, where the address of `x.c.` is asked for. -/
example : exWorld.Signed lenPlatform ∧ Honest true exWorld ⟨ascii "x.c."⟩ 1 exResolve ∧ lA ∈ exWorld.answer ∧ lA.owner = ⟨ascii "x.c."⟩ ∧ lA.ty = 1 ∧
    ∃ answered b, Session true exResolve ⟨ascii "x.c."⟩ 1 [] answered b := by
  obtain ⟨ans, b, hs, _⟩ := session_fifo exSigned (exHonest true) (by decide) 10 _ [] _ (by simp) .new .new
  exact ⟨exSigned, exHonest true, by simp [exWorld], rfl, rfl, ans, b, hs⟩

end Dnssec.Props
