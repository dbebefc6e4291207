import Verif.Proofs.Doh
import Verif.Proofs.JsonUnique
import Verif.Props.Wasm
import Verif.Props.Honest

/-! # C63: the DNS-over-HTTPS client -/

namespace Dnssec.Props

open Dnssec Spec

variable {dbg : Bool} {p : Platform} {fuel rounds : Nat} {js : Js} {domain ty endpoint : Bytes} {fetch : Nat → Bytes → Fetch}

/-- **C63.** The course of every lookup, whatever the requests return. A type other than TXT, TLSA, A and AAAA (in any case) and a domain
that is no name are reported without any request. Otherwise the requests are, in order, GET requests of RFC 8484 for the queries of a
proof builder for the domain and type which is fed the bodies returned (those shorter than 65535 bytes), until one fails, which is
reported, or all have been made; then the outcome is what `verify_byte_stream` makes of the proof, if the builder has one. -/
theorem C63_course {urls : List Bytes} {out : JsOutcome} (h : lookupDoh dbg p fuel rounds js domain ty endpoint fetch = some (urls, out)) :
    ((∀ code, ¬ NamesType ty code) ∧ urls = [] ∧ out = .returns (ascii "{\"error\":\"Unsupported Type\"}")) ∨
    (∃ code, NamesType ty code ∧ (¬ ∃ n, DomainName domain n) ∧ urls = [] ∧ out = .returns (ascii "{\"error\":\"Bad domain\"}")) ∨
    ∃ code n asked bodies acc rej qs b, NamesType ty code ∧ DomainName domain n ∧ Answered endpoint fetch asked bodies ∧
      Run dbg n code acc rej qs b ∧ Interleaving acc rej (bodies.filter (fun r => decide (r.length < 65535))) ∧
      ((qs = asked ∧ urls = asked.map (dohGet endpoint) ∧
        ((b.finish = none ∧ out = .returns (ascii "{\"error\":\"Failed to build proof\"}")) ∨
         ∃ proof ttl, b.finish = some (proof, ttl) ∧
          ((verifyByteStream dbg p fuel proof = some .panic ∧ out = .rejects) ∨
           ∃ result, verifyByteStream dbg p fuel proof = some (.ok result) ∧
            ((js.reformat result = none ∧ out = .rejects) ∨ ∃ text, js.reformat result = some text ∧ out = .returns text)))) ∨
       (∃ q rest e, qs = asked ++ q :: rest ∧ urls = (asked ++ [q]).map (dohGet endpoint) ∧
        out = .returns (ascii "{\"error\":\"DoH Query failed: " ++ e ++ ascii "\"}") ∧
        (fetch asked.length (dohGet endpoint q) = .throws e ∨
         (∃ code, fetch asked.length (dohGet endpoint q) = .status code ∧ e = ascii "Query returned HTTP " ++ decimal code) ∨
         (∃ body b', fetch asked.length (dohGet endpoint q) = .body body ∧ b.processResponse dbg body = (b', .panic) ∧ e = js.trap)))) := by
  unfold lookupDoh at h
  simp only at h
  cases ht : dohType ty with
  | none =>
    rw [ht] at h
    simp only [Option.some.injEq, Prod.mk.injEq] at h
    refine Or.inl ⟨fun code hc => ?_, h.1.symm, h.2.symm⟩
    rw [(dohType_iff ty code).mpr hc] at ht
    exact nomatch ht
  | some code =>
    rw [ht] at h
    simp only at h
    have hc := (dohType_iff ty code).mp ht
    refine Or.inr ?_
    cases hi : initProofBuilder (if domain.getLast? = some dot then domain else domain ++ [dot]) code with
    | none =>
      rw [hi] at h
      simp only [Option.some.injEq, Prod.mk.injEq] at h
      exact Or.inl ⟨code, hc, initProofBuilder_none hi, h.1.symm, h.2.symm⟩
    | some w =>
      rw [hi] at h
      simp only at h
      obtain ⟨n, hn, hs⟩ := dohState_init (dbg := dbg) (endpoint := endpoint) (fetch := fetch) hi
      obtain ⟨asked, bodies, ⟨b, queue⟩, ⟨h1, acc, rej, h2, h3⟩, h4⟩ := sendNextQuery_end rounds [] [] w urls out hs h
      refine Or.inr ⟨code, n, asked, bodies, acc, rej, _, b, hc, hn, h1, h2, h3, ?_⟩
      simp only [List.map_nil, List.nil_append] at h4
      rcases h4 with ⟨hq, hu, hf⟩ | ⟨q, queue', hq, hu, hf⟩
      · refine Or.inl ⟨by rw [hq, List.append_nil], hu, ?_⟩
        rw [dohFinish, if_pos rfl] at hf
        unfold getUnverifiedProof at hf
        simp only at hf
        cases hb : b.finish with
        | none =>
          rw [hb] at hf
          simp only [Option.map_none, Option.some.injEq] at hf
          exact Or.inl ⟨rfl, hf.symm⟩
        | some r =>
          obtain ⟨proof, ttl⟩ := r
          rw [hb] at hf
          simp only [Option.map_some] at hf
          refine Or.inr ⟨proof, ttl, rfl, ?_⟩
          cases hv : verifyByteStream dbg p fuel proof with
          | none => rw [hv] at hf; exact nomatch hf
          | some r =>
            rw [hv] at hf
            cases r with
            | panic => simp only [Option.some.injEq] at hf; exact Or.inl ⟨rfl, hf.symm⟩
            | err u =>
              exfalso
              unfold verifyByteStream at hv
              split at hv
              · exact nomatch hv
              · exact nomatch hv
              · split at hv <;> exact nomatch hv
            | ok result =>
              simp only at hf
              refine Or.inr ⟨result, rfl, ?_⟩
              cases hj : js.reformat result with
              | none => rw [hj] at hf; simp only [Option.some.injEq] at hf; exact Or.inl ⟨rfl, hf.symm⟩
              | some text => rw [hj] at hf; simp only [Option.some.injEq] at hf; exact Or.inr ⟨text, rfl, hf.symm⟩
      · refine Or.inr ?_
        rcases hf with ⟨e, h5, h6⟩ | ⟨st, h5, h6⟩ | ⟨body, h5, h6, h7⟩
        · exact ⟨q, queue', e, by rw [hq], hu, by rw [h6]; simp [dohFailed], Or.inl h5⟩
        · exact ⟨q, queue', _, by rw [hq], hu, by rw [h6]; simp [dohFailed], Or.inr (Or.inl ⟨st, h5, rfl⟩)⟩
        · refine ⟨q, queue', js.trap, by rw [hq], hu, by rw [h7]; simp [dohFailed], Or.inr (Or.inr ?_)⟩
          unfold processQueryResponse at h6
          split at h6
          · split at h6
            · exact nomatch h6
            · exact nomatch h6
            · rename_i b' hp
              exact ⟨body, b', h5, hp, rfl⟩
          · exact nomatch h6

/-- **C63.** At most ten requests are made, whatever they return. -/
theorem C63_at_most_ten_requests {urls : List Bytes} {out : JsOutcome}
    (h : lookupDoh dbg p fuel rounds js domain ty endpoint fetch = some (urls, out)) : urls.length ≤ 10 := by
  rcases C63_course h with ⟨_, rfl, _⟩ | ⟨_, _, _, rfl, _⟩ | ⟨code, n, asked, bodies, acc, rej, qs, b, _, _, _, hr, _, h⟩
  · simp
  · simp
  · have := C42_at_most_ten_queries hr
    rcases h with ⟨rfl, rfl, _⟩ | ⟨q, rest, e, rfl, rfl, _⟩
    · simpa using this
    · simp at this ⊢
      omega

/-- **C63.** The promise is settled, with a text or by rejection but not with `undefined`, after at most ten requests, unless the
verification of the proof does not return (C31). -/
theorem C63_settles :
    (∃ urls out, lookupDoh dbg p fuel 11 js domain ty endpoint fetch = some (urls, out) ∧ out ≠ .undefined) ∨
    ∃ code n bodies acc rej qs b proof ttl, NamesType ty code ∧ DomainName domain n ∧ Answered endpoint fetch qs bodies ∧
      Run dbg n code acc rej qs b ∧ Interleaving acc rej (bodies.filter (fun r => decide (r.length < 65535))) ∧
      b.finish = some (proof, ttl) ∧ verifyByteStream dbg p fuel proof = none := by
  cases hl : lookupDoh dbg p fuel 11 js domain ty endpoint fetch with
  | some r =>
    obtain ⟨urls, out⟩ := r
    refine Or.inl ⟨urls, out, rfl, ?_⟩
    rintro rfl
    rcases C63_course hl with ⟨_, _, h⟩ | ⟨_, _, _, _, h⟩ | ⟨_, _, _, _, _, _, _, _, _, _, _, _, _, h⟩
    · exact nomatch h
    · exact nomatch h
    · rcases h with ⟨_, _, ⟨_, h⟩ | ⟨_, _, _, ⟨_, h⟩ | ⟨_, _, ⟨_, h⟩ | ⟨_, _, h⟩⟩⟩⟩ | ⟨_, _, _, _, _, h, _⟩ <;> exact nomatch h
  | none =>
    refine Or.inr ?_
    unfold lookupDoh at hl
    simp only at hl
    split at hl
    · split at hl
      · exact nomatch hl
      · rename_i code ht _ w hi
        obtain ⟨n, hn, hs⟩ := dohState_init (dbg := dbg) (endpoint := endpoint) (fetch := fetch) hi
        obtain ⟨asked, bodies, ⟨b, queue⟩, proof, ⟨h1, acc, rej, h2, h3⟩, hq, hp, h⟩ := sendNextQuery_settles 11 [] [] w hs (by simp) hl
        rw [hq, List.append_nil] at h2
        obtain ⟨ttl, ht'⟩ := (C53_proof _ _).mp hp
        exact ⟨code, n, bodies, acc, rej, asked, b, proof, ttl, (dohType_iff ty code).mp ht, hn, h1, h2, h3, ht', h⟩
    · exact nomatch hl

/-- **C63.** The server can recover the query from the URL. -/
theorem C63_query_recoverable (q q' : Bytes) : dohGet endpoint q = dohGet endpoint q' ↔ q = q' := by
  constructor
  · intro h
    exact base64url_inj (List.append_cancel_left h)
  · rintro rfl
    rfl

example : base64url [0xfb, 0xff, 0x3e, 0xff] = ascii "-_8-_w" := by decide +kernel

/-! ### What is returned -/

theorem error_text {e : Bytes} (hp : Plain e) (ha : IsAscii e) :
    JsonText (ascii "{\"error\":\"" ++ (e ++ ascii "\"}")) (.obj [(ascii "error", .str e)]) := by
  refine ⟨utf8Valid_iff.mp (utf8Valid_ascii ?_), [], ascii "{\"error\":\"" ++ (e ++ ascii "\"}"), [], by simp, ws_nil, ?_, ws_nil⟩
  · intro c hc
    simp only [List.mem_append] at hc
    rcases hc with hc | hc | hc
    · exact (show ∀ c ∈ ascii "{\"error\":\"", c.toNat < 128 by decide) c hc
    · exact ha c hc
    · exact (show ∀ c ∈ ascii "\"}", c.toNat < 128 by decide) c hc
  · have := value_record [(ascii "error", quoted e, .str e)] (text := ascii "{\"error\":\"" ++ (e ++ ascii "\"}")) (by simp)
      (by simp only [List.mem_singleton, forall_eq]; exact ⟨show Plain (ascii "error") by decide, value_quoted hp⟩)
      (by simp only [List.map_cons, List.map_nil, renderMembers, quoted, List.append_assoc, List.cons_append]; rfl)
    exact this

theorem status_text (code : Nat) :
    JsonText (ascii "{\"error\":\"DoH Query failed: " ++ (ascii "Query returned HTTP " ++ decimal code) ++ ascii "\"}")
      (.obj [(ascii "error", .str (ascii "DoH Query failed: Query returned HTTP " ++ decimal code))]) := by
  have := error_text (e := ascii "DoH Query failed: Query returned HTTP " ++ decimal code) (by
    intro c hc
    rcases List.mem_append.mp hc with hc | hc
    · exact (show Plain (ascii "DoH Query failed: Query returned HTTP ") by decide) c hc
    · have hd := (decimal_int code).digits c hc
      refine ⟨by omega, ?_, ?_⟩ <;> (rintro rfl; revert hd; decide)) (by
    intro c hc
    rcases List.mem_append.mp hc with hc | hc
    · exact (show ∀ c ∈ ascii "DoH Query failed: Query returned HTTP ", c.toNat < 128 by decide) c hc
    · have hd := (decimal_int code).digits c hc
      omega)
  refine Eq.mp (congrArg (fun t => JsonText t _) ?_) this
  simp only [← List.append_assoc]
  congr 1

theorem instant_le (t : UInt32) : instant t ≤ 2 ^ 33 := by
  have := t.toNat_lt
  unfold instant
  split <;> omega

/-- **C63.** Whatever the requests return, a text returned by a lookup is either an error object, or reports an exception of the
JavaScript engine, or is a JSON text whose one value is the object with the validity window and exactly the records of a verified proof;
each of these is authenticated by a chain of trust from the root anchors.
Missing from the full property: records with a backslash in a name (C52), the form of texts that report exceptions, and that the
records belong to the domain looked up; for the latter two it is false. -/
theorem C63_authentic_partial {urls : List Bytes} {text : Bytes} (hjs : Js.Conforms js)
    (h : lookupDoh dbg p fuel rounds js domain ty endpoint fetch = some (urls, .returns text)) :
    (∃ e, JsonText text (.obj [(ascii "error", .str e)])) ∨
    (∃ e, ((∃ k q, fetch k (dohGet endpoint q) = .throws e) ∨ e = js.trap) ∧
      text = ascii "{\"error\":\"DoH Query failed: " ++ e ++ ascii "\"}") ∨
    ∃ inp v, verifyRRStream dbg p fuel inp = some (.ok v) ∧ (∀ r ∈ v.verifiedRrs, Authenticated (codeCheck p) p inp r) ∧
      ((∀ r ∈ v.verifiedRrs, 92 ∉ r.name.bytes ∧ ∀ n ∈ rdataNames r, 92 ∉ n.bytes) →
        ∃ j, JsonText text j ∧ VerifiedVal v j ∧ ∀ j', JsonText text j' → j' = j) := by
  rcases C63_course h with ⟨_, _, he⟩ | ⟨_, _, _, _, he⟩ | ⟨code, n, asked, bodies, acc, rej, qs, b, _, _, ha, hr, _, hc⟩
  · cases he
    exact Or.inl ⟨_, error_text (e := ascii "Unsupported Type") (by decide) (by decide)⟩
  · cases he
    exact Or.inl ⟨_, error_text (e := ascii "Bad domain") (by decide) (by decide)⟩
  · rcases hc with ⟨_, _, ⟨_, he⟩ | ⟨proof, ttl, hf, ⟨_, he⟩ | ⟨result, hv, ⟨_, he⟩ | ⟨text', ht, he⟩⟩⟩⟩ | ⟨q, rest, e, _, _, he, hq⟩
    · cases he
      exact Or.inl ⟨_, error_text (e := ascii "Failed to build proof") (by decide) (by decide)⟩
    · exact nomatch he
    · exact nomatch he
    · cases he
      rcases C58_json_partial hv with ⟨rrs, v, _, hv, hj⟩ | ⟨e, hj, _⟩
      · refine Or.inr (Or.inr ⟨rrs, v, hv, C21_chain_of_trust hv, fun hb => ?_⟩)
        obtain ⟨j, hj, hval⟩ := hj hb
        obtain ⟨⟨⟨s1, _, e1⟩, _⟩, ⟨⟨s2, _, e2⟩, _⟩, _⟩ := C24_window hv
        obtain ⟨out, ho, hj'⟩ := hjs _ _ hj (portable_verified hval (by have := instant_le s1.inception; simp only at e1; omega)
          (by have := instant_le s2.expiration; simp only at e2; omega))
        rw [ht] at ho
        cases ho
        exact ⟨j, hj', hval, fun j' h' => jsonText_unique h' hj'⟩
      · obtain ⟨out, ho, hj'⟩ := hjs _ _ hj (portable_error e)
        rw [ht] at ho
        cases ho
        exact Or.inl ⟨e, hj'⟩
    · cases he
      rcases hq with hq | ⟨c, _, rfl⟩ | ⟨body, b', _, _, rfl⟩
      · exact Or.inr (Or.inl ⟨e, Or.inl ⟨_, _, hq⟩, rfl⟩)
      · exact Or.inl ⟨_, status_text c⟩
      · exact Or.inr (Or.inl ⟨_, Or.inr rfl, rfl⟩)

/-! ### With a correctly functioning server -/

theorem sendNextQuery_session {w : World} {name : Name} {code : UInt16} {resolve : Bytes → Bytes} (hw : w.Signed p)
    (hr : Honest dbg w name code resolve) (h4 : w.zones.length ≤ 4)
    (hf : ∀ k q, fetch k (dohGet endpoint q) = .body (resolve q)) (hlen : ∀ q, (resolve q).length < 65535) :
    ∀ (m : Nat) (out ans : List Bytes) (b : ProofBuilder), 10 ≤ ans.length + m → Session dbg resolve name code out ans b →
    ∃ ans' b', Session dbg resolve name code [] ans' b' ∧ ∀ fuel k, ∃ urls,
      sendNextQuery dbg p fuel js endpoint fetch (m + 1) k 0 ⟨b, out⟩ = (dohFinish dbg p fuel js 0 ⟨b', []⟩).map (fun o => (urls, o)) := by
  have stop : ∀ m ans b, Session dbg resolve name code [] ans b → ∃ ans' b', Session dbg resolve name code [] ans' b' ∧ ∀ fuel k, ∃ urls,
      sendNextQuery dbg p fuel js endpoint fetch (m + 1) k 0 ⟨b, []⟩ = (dohFinish dbg p fuel js 0 ⟨b', []⟩).map (fun o => (urls, o)) := by
    intro m ans b h
    refine ⟨ans, b, h, fun fuel k => ⟨[], ?_⟩⟩
    rw [sendNextQuery]
    simp only [getNextQuery]
    cases dohFinish dbg p fuel js 0 ⟨b, []⟩ <;> rfl
  intro m
  induction m with
  | zero =>
    intro out ans b hn h
    obtain ⟨_, hm, hm', _⟩ := session_count hw hr h h4
    have : out = [] := List.length_eq_zero_iff.mp (by omega)
    subst this
    exact stop 0 ans b h
  | succ m ih =>
    intro out ans b hn h
    cases out with
    | nil => exact stop (m + 1) ans b h
    | cons q out =>
      obtain ⟨b', more, hp⟩ := session_progress hw hr h h4 (q := q) (by simp)
      have h3 := Session.respond (before := []) h hp
      obtain ⟨ans', b'', h5, h6⟩ := ih _ _ b' (by simp only [List.length_append, List.length_singleton]; omega) h3
      refine ⟨ans', b'', h5, fun fuel k => ?_⟩
      obtain ⟨urls, h7⟩ := h6 fuel (k + 1)
      refine ⟨dohGet endpoint q :: urls, ?_⟩
      rw [sendNextQuery]
      simp only [getNextQuery, dohUrl_get, hf, processQueryResponse, hlen, if_pos, hp]
      rw [List.nil_append] at h7
      rw [show (0 : Int) + 1 - 1 = 0 from rfl, h7]
      cases dohFinish dbg p fuel js 0 ⟨b'', []⟩ <;> rfl

/-- **C63.** If the server answers every request like a correctly functioning resolver for a correctly signed world with one to four zones
below the root, the lookup of a domain returns the JSON text of exactly the records of the answer.
Missing from the full property: the cases in which C67 is false, and names with backslashes. -/
theorem C63_honest_partial {w : World} {name : Name} {code : UInt16} {resolve : Bytes → Bytes} (hjs : Js.Conforms js)
    (ht : NamesType ty code) (hd : DomainName domain name) (hw : w.Signed p) (hk : w.AnsweredAnchoredFirst dbg p resolve) (hr : Honest dbg w name code resolve)
    (h1 : w.zones ≠ []) (h4 : w.zones.length ≤ 4)
    (hf : ∀ k q, fetch k (dohGet endpoint q) = .body (resolve q)) (hlen : ∀ q, (resolve q).length < 65535)
    (hb : ∀ s ∈ w.answer, ∀ r ∈ s.records, 92 ∉ r.name.bytes ∧ ∀ n ∈ rdataNames r, 92 ∉ n.bytes) :
    ∃ fuel urls text v j, lookupDoh dbg p fuel 11 js domain ty endpoint fetch = some (urls, .returns text) ∧
      (∀ r, r ∈ v.verifiedRrs ↔ ∃ s ∈ w.answer, s.ty ≠ 47 ∧ s.ty ≠ 50 ∧ r ∈ s.records) ∧
      JsonText text j ∧ VerifiedVal v j ∧ ∀ j', JsonText text j' → j' = j := by
  obtain ⟨ans, b, hs, hrun⟩ := sendNextQuery_session (p := p) (js := js) hw hr h4 hf hlen 10 _ [] _ (by simp) .new
  obtain ⟨_, _, _, hfin⟩ := C67_build_then_verify_partial hw hk hr h1 h4 hs
  obtain ⟨proof, ttl, inp, f1, f2, f3⟩ := hfin rfl
  obtain ⟨fuel, v, hv, hmem⟩ := f3 dbg
  obtain ⟨urls, hrun⟩ := hrun fuel 0
  have hbv : ∀ r ∈ v.verifiedRrs, 92 ∉ r.name.bytes ∧ ∀ n ∈ rdataNames r, 92 ∉ n.bytes := by
    intro r hr
    obtain ⟨s, hs, _, _, hr⟩ := (hmem r).mp hr
    exact hb s hs r hr
  have hbs : verifyByteStream dbg p fuel proof = some (.ok (verifiedJson v)) := by
    unfold verifyByteStream
    rw [f2 dbg]
    simp only [hv]
  have hj : ∃ j, JsonText (verifiedJson v) j ∧ VerifiedVal v j := by
    rcases C58_json_partial hbs with ⟨rrs, v', hp, hv', hj⟩ | ⟨_, _, ⟨hp, _⟩ | ⟨rrs, err, hp, hv', _⟩⟩
    · rw [f2 dbg] at hp
      cases hp
      rw [hv] at hv'
      cases hv'
      exact hj hbv
    · rw [f2 dbg] at hp
      exact nomatch hp
    · rw [f2 dbg] at hp
      cases hp
      rw [hv] at hv'
      exact nomatch hv'
  obtain ⟨j, hj, hval⟩ := hj
  obtain ⟨⟨⟨s1, _, e1⟩, _⟩, ⟨⟨s2, _, e2⟩, _⟩, _⟩ := C24_window hv
  obtain ⟨text, ho, hj'⟩ := hjs _ _ hj (portable_verified hval (by have := instant_le s1.inception; simp only at e1; omega)
    (by have := instant_le s2.expiration; simp only at e2; omega))
  refine ⟨fuel, urls, text, v, j, ?_, hmem, hj', hval, fun j' h' => jsonText_unique h' hj'⟩
  unfold lookupDoh
  simp only [(dohType_iff ty code).mpr ht, initProofBuilder_domain hd, hrun]
  simp [dohFinish, getUnverifiedProof, f1, hbs, ho]

/-- An engine which leaves the text as it is conforms. -/
theorem conforms_id : Js.Conforms ⟨some, ascii "unreachable"⟩ := fun t _ h _ => ⟨t, rfl, h⟩

/-- A server which answers like a resolver. -/
noncomputable def serve (endpoint : Bytes) (resolve : Bytes → Bytes) (_k : Nat) (url : Bytes) : Fetch :=
  open Classical in if h : ∃ q, url = dohGet endpoint q then .body (resolve h.choose) else .status 400

theorem serve_body (endpoint : Bytes) (resolve : Bytes → Bytes) (k : Nat) (q : Bytes) :
    serve endpoint resolve k (dohGet endpoint q) = .body (resolve q) := by
  have h : ∃ q', dohGet endpoint q = dohGet endpoint q' := ⟨q, rfl⟩
  unfold serve
  rw [dif_pos h]
  exact congrArg (fun q => Fetch.body (resolve q)) ((C63_query_recoverable (endpoint := endpoint) q h.choose).mp h.choose_spec).symm

theorem exResolve_short (q : Bytes) : (exResolve q).length < 65535 := by
  unfold exResolve
  split
  · decide +kernel
  split
  · decide +kernel
  split
  · decide +kernel
  split
  · decide +kernel
  · decide

/-- The hypotheses of `C63_honest_partial` are met by the world of C67. -/
example : ∃ fuel urls text v j,
    lookupDoh true lenPlatform fuel 11 ⟨some, ascii "unreachable"⟩ (ascii "x.c") (ascii "A") (ascii "https://dns.example/q")
      (serve (ascii "https://dns.example/q") exResolve) = some (urls, .returns text) ∧
    (∀ r, r ∈ v.verifiedRrs ↔ ∃ s ∈ exWorld.answer, s.ty ≠ 47 ∧ s.ty ≠ 50 ∧ r ∈ s.records) ∧
    JsonText text j ∧ VerifiedVal v j ∧ ∀ j', JsonText text j' → j' = j := by
  refine C63_honest_partial conforms_id (code := 1) (name := ⟨ascii "x.c."⟩) 
    (by unfold NamesType; decide) (by unfold DomainName; decide +kernel) exSigned (answeredFirst exSigned (exHonest true) exAnchored) (exHonest true) (by simp [exWorld]) (by decide) (serve_body _ _) exResolve_short ?_
  intro s hs
  simp only [exWorld, List.mem_cons, List.not_mem_nil, or_false] at hs
  rcases hs with rfl | rfl
  · simp only [lA, List.mem_singleton, forall_eq]
    exact ⟨by decide, by simp [wA, rdataNames]⟩
  · simp only [lDenial, List.mem_singleton, forall_eq]
    exact ⟨by decide, by simp only [lNsec, rdataNames, List.mem_singleton, forall_eq]; decide⟩

/-! ### What is false -/

/-- Responses in which the address of `a.c.` is authenticated, whatever is asked. -/
def otherReplies : List Bytes :=
  [exReply "a.c." 1 (autoSet "a.c." 1 2 "c." (wA "a.c.")).all [], exReply "c." 48 (autoZone "." "c." 1).keys.all [],
    exReply "c." 43 (autoZone "." "c." 1).ds.all [], exReply "." 48 (autoSet "." 48 0 "." (wKey ".")).all []]

/-- **C63 is false** in that the result need not be about the domain and type looked up: the records returned are all those in the proof
(`resolve_name` is not called), so that a server which answers a lookup of TXT records of `bank.example` with a proof for the address of
`a.c.` has this address returned as verified. -/
theorem C63_fails_for_other_domain :
    (lookupDoh true lenPlatform 5 11 ⟨some, ascii "unreachable"⟩ (ascii "bank.example") (ascii "txt") (ascii "https://dns.example/q")
      (fun k _ => .body (otherReplies.getD k []))).map (·.2) =
    some (.returns (ascii "{\"valid_from\": 1000000000, \"expires\": 2000000000, \"max_cache_ttl\": 3600, \"verified_rrs\": [{\"type\":\"a\",\"name\":\"a.c.\",\"address\":[1, 2, 3, 4]}]}")) := by
  decide +kernel

/-- The hypotheses of `C63_course`, `C63_at_most_ten_requests` and `C63_authentic_partial` are met by this lookup, with four requests. -/
example : Js.Conforms ⟨some, ascii "unreachable"⟩ ∧
    ∃ urls text, lookupDoh true lenPlatform 5 11 ⟨some, ascii "unreachable"⟩ (ascii "bank.example") (ascii "txt") (ascii "https://dns.example/q")
      (fun k _ => .body (otherReplies.getD k [])) = some (urls, .returns text) ∧ urls.length = 4 := by
  have h := C63_fails_for_other_domain
  have h4 : (lookupDoh true lenPlatform 5 11 ⟨some, ascii "unreachable"⟩ (ascii "bank.example") (ascii "txt") (ascii "https://dns.example/q")
      (fun k _ => .body (otherReplies.getD k []))).map (·.1.length) = some 4 := by decide +kernel
  refine ⟨conforms_id, ?_⟩
  revert h h4
  generalize lookupDoh _ _ _ _ _ _ _ _ _ = r
  intro h h4
  match r, h, h4 with
  | some (urls, out), h, h4 =>
    simp only [Option.map_some, Option.some.injEq] at h h4
    exact ⟨urls, _, by rw [h], h4⟩

/-- An exception text with quotation marks. -/
def forged : Bytes := ascii "\",\"verified_rrs\":[{\"type\":\"txt\",\"name\":\"bank.example.\",\"contents\":\"x\"}],\"a\":\""

/-- **C63 is false** in that the text of an exception is put between quotation marks as it is: with a suitable text the result of a failed
lookup is a JSON object with `verified_rrs`, whatever the platform. -/
theorem C63_fails_for_exception_text (p : Platform) :
    ∃ text, lookupDoh dbg p fuel 11 js (ascii "bank.example") (ascii "txt") endpoint (fun _ _ => .throws forged) =
      some ([dohGet endpoint (queryMessage (nameWire (ascii "bank.example.")) 16)], .returns text) ∧
    JsonText text (.obj [(ascii "error", .str (ascii "DoH Query failed: ")),
      (ascii "verified_rrs", .arr [.obj [(ascii "type", .str (ascii "txt")), (ascii "name", .str (ascii "bank.example.")),
        (ascii "contents", .str (ascii "x"))]]),
      (ascii "a", .str [])]) := by
  refine ⟨dohFailed forged, ?_, utf8Valid_iff.mp (utf8Valid_ascii (by decide +kernel)), [], dohFailed forged, [], by simp, ws_nil, ?_, ws_nil⟩
  · unfold lookupDoh
    rw [show dohType (ascii "txt") = some 16 by decide]
    simp only [initProofBuilder_domain (domain := ascii "bank.example") (n := ⟨ascii "bank.example."⟩) (by unfold DomainName; decide +kernel)]
    rw [sendNextQuery]
    simp only [getNextQuery, dohUrl_get]
    rw [show (ProofBuilder.new ⟨ascii "bank.example."⟩ 16).2 = queryMessage (nameWire (ascii "bank.example.")) 16 by decide +kernel]
  · have hr := value_record [(ascii "type", quoted (ascii "txt"), .str (ascii "txt")),
        (ascii "name", quoted (ascii "bank.example."), .str (ascii "bank.example.")), (ascii "contents", quoted (ascii "x"), .str (ascii "x"))]
      (text := ascii "{\"type\":\"txt\",\"name\":\"bank.example.\",\"contents\":\"x\"}") (by simp) (by
        intro m hm
        simp only [List.mem_cons, List.not_mem_nil, or_false] at hm
        rcases hm with rfl | rfl | rfl <;> exact ⟨by decide, value_quoted (by decide)⟩) (by decide +kernel)
    have := value_record [(ascii "error", quoted (ascii "DoH Query failed: "), .str (ascii "DoH Query failed: ")),
        (ascii "verified_rrs", _, _), (ascii "a", quoted [], .str [])] (text := dohFailed forged) (by simp) (by
        intro m hm
        simp only [List.mem_cons, List.not_mem_nil, or_false] at hm
        rcases hm with rfl | rfl | rfl
        · exact ⟨by decide, value_quoted (by decide)⟩
        · exact ⟨by decide, Value.arr (Elems.one ws_nil hr ws_nil)⟩
        · exact ⟨by decide, value_quoted (by decide)⟩) (by decide +kernel)
    exact this

end Dnssec.Props
