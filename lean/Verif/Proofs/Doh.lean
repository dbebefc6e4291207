import Verif.Spec.Doh
import Verif.Proofs.Base32
import Verif.Proofs.Wasm
import Verif.Proofs.Builder

/-! # Lemmas about the DNS-over-HTTPS client -/

namespace Dnssec

open Spec

/-! ### base64url -/

theorem digits64_add (a : Nat) : ∀ (b x y : Nat), y < 64 ^ b → digits64 (a + b) (x * 64 ^ b + y) = digits64 a x ++ digits64 b y
  | 0, x, y, h => by
    have : y = 0 := by simpa using h
    subst this; simp [digits64]
  | b + 1, x, y, h => by
    rw [← Nat.add_assoc, digits64, digits64]
    have e1 : (x * 64 ^ (b + 1) + y) / 64 = x * 64 ^ b + y / 64 := by
      rw [Nat.pow_succ, ← Nat.mul_assoc, Nat.mul_comm _ 64, Nat.mul_add_div (by decide)]
    have e2 : (x * 64 ^ (b + 1) + y) % 64 = y % 64 := by
      rw [Nat.pow_succ, ← Nat.mul_assoc, Nat.mul_comm _ 64, Nat.mul_add_mod]
    rw [e1, e2, digits64_add a b x (y / 64) (by rw [Nat.div_lt_iff_lt_mul (by decide)]; rw [Nat.pow_succ] at h; exact h),
      List.append_assoc]

/-- The replacements on one character. -/
def urlOf (c : UInt8) : UInt8 :=
  let c := if c = 43 then 45 else c
  if c = 47 then 95 else c

theorem urlOf_char : ∀ v : Fin 64, urlOf (base64Char (UInt8.ofNat v.val)) = urlChar v.val ∧ urlChar v.val ≠ 61 := by decide +kernel

theorem urlOf_base64 (x : UInt8) (n : Nat) (h : x.toNat = n) (hn : n < 64) : urlOf (base64Char x) = urlChar n ∧ urlChar n ≠ 61 := by
  have := urlOf_char ⟨n, hn⟩
  simp only at this
  rwa [← h, UInt8.ofNat_toNat, h] at this

theorem b64url_eq (d : Bytes) : b64url d = ((btoa d).map urlOf).filter (fun c => c ≠ 61) := by
  unfold b64url
  simp only [List.map_map]
  rfl

theorem d1 : ∀ b : Fin 256, (UInt8.ofNat b.val >>> 2).toNat = b.val / 4 := by decide +kernel
theorem d2 : ∀ b : Fin 256, ((UInt8.ofNat b.val &&& 3) <<< 4).toNat = b.val % 4 * 16 := by decide +kernel
theorem d3 : ∀ b : Fin 256, (UInt8.ofNat b.val >>> 4).toNat = b.val / 16 := by decide +kernel
theorem d4 : ∀ b : Fin 256, ((UInt8.ofNat b.val &&& 15) <<< 2).toNat = b.val % 16 * 4 := by decide +kernel
theorem d5 : ∀ b : Fin 256, (UInt8.ofNat b.val >>> 6).toNat = b.val / 64 := by decide +kernel
theorem d6 : ∀ b : Fin 256, (UInt8.ofNat b.val &&& 63).toNat = b.val % 64 := by decide +kernel

theorem d23 (a b : UInt8) : (((a &&& 3) <<< 4) ||| (b >>> 4)).toNat = a.toNat % 4 * 16 + b.toNat / 16 := by
  rw [UInt8.toNat_or, Base32.byteLemma (P := fun x n => ((x &&& 3) <<< 4).toNat = n % 4 * 16) d2 a,
    Base32.byteLemma (P := fun x n => (x >>> 4).toNat = n / 16) d3 b]
  have := b.toNat_lt
  exact Base32.or_add _ _ 4 (by omega) (Nat.dvd_mul_left _ _)

theorem d45 (a b : UInt8) : (((a &&& 15) <<< 2) ||| (b >>> 6)).toNat = a.toNat % 16 * 4 + b.toNat / 64 := by
  rw [UInt8.toNat_or, Base32.byteLemma (P := fun x n => ((x &&& 15) <<< 2).toNat = n % 16 * 4) d4 a,
    Base32.byteLemma (P := fun x n => (x >>> 6).toNat = n / 64) d5 b]
  have := b.toNat_lt
  exact Base32.or_add _ _ 2 (by omega) (Nat.dvd_mul_left _ _)

theorem base64url_cons (a b c : UInt8) (r : Bytes) :
    base64url (a :: b :: c :: r) = (digits64 4 (beNat [a, b, c])).map urlChar ++ base64url r := by
  unfold base64url
  simp only [List.length_cons]
  generalize hm : (8 * r.length + 5) / 6 = m
  rw [show (8 * (r.length + 1 + 1 + 1) + 5) / 6 = 4 + m by omega,
    show 6 * (4 + m) - 8 * (r.length + 1 + 1 + 1) = 6 * m - 8 * r.length by omega, show a :: b :: c :: r = [a, b, c] ++ r from rfl,
    Base32.beNat_append, Nat.add_mul, Nat.mul_assoc]
  have hp : 256 ^ r.length * 2 ^ (6 * m - 8 * r.length) = 64 ^ m := by
    rw [show (256 : Nat) = 2 ^ 8 by rfl, show (64 : Nat) = 2 ^ 6 by rfl, ← Nat.pow_mul, ← Nat.pow_mul, ← Nat.pow_add]
    congr 1; omega
  rw [hp, digits64_add 4 m _ _ (by
    rw [← hp]; exact Nat.mul_lt_mul_of_pos_right (Base32.beNat_lt r) (Nat.pow_pos (by decide))), List.map_append]

theorem b64url_rfc : ∀ d : Bytes, b64url d = base64url d
  | [] => by decide
  | [a] => by
    have ha := a.toNat_lt
    have h1 := urlOf_base64 (a >>> 2) (a.toNat / 4) (Base32.byteLemma (P := fun x n => (x >>> 2).toNat = n / 4) d1 a) (by omega)
    have h2 := urlOf_base64 ((a &&& 3) <<< 4) (a.toNat % 4 * 16) (Base32.byteLemma (P := fun x n => ((x &&& 3) <<< 4).toNat = n % 4 * 16) d2 a)
      (by omega)
    have h3 : urlOf 61 = 61 := rfl
    rw [b64url_eq]
    simp only [btoa, List.map_cons, List.map_nil, h1.1, h2.1, h3]
    rw [List.filter_cons_of_pos (by simpa using h1.2), List.filter_cons_of_pos (by simpa using h2.2), List.filter_cons_of_neg (by simp),
      List.filter_cons_of_neg (by simp), List.filter_nil]
    simp only [base64url, List.length_cons, List.length_nil, Nat.zero_add, Nat.mul_one, Nat.reduceAdd, Nat.reduceDiv, Nat.reduceMul,
      Nat.reduceSub, Nat.reducePow, digits64, beNat, List.foldl_cons, List.foldl_nil, List.nil_append, List.cons_append, List.map_cons,
      List.map_nil, List.cons.injEq, and_true]
    exact ⟨congrArg urlChar (by omega), congrArg urlChar (by omega)⟩
  | [a, b] => by
    have ha := a.toNat_lt
    have hb := b.toNat_lt
    have h1 := urlOf_base64 (a >>> 2) (a.toNat / 4) (Base32.byteLemma (P := fun x n => (x >>> 2).toNat = n / 4) d1 a) (by omega)
    have h2 := urlOf_base64 _ _ (d23 a b) (by omega)
    have h3 := urlOf_base64 ((b &&& 15) <<< 2) (b.toNat % 16 * 4)
      (Base32.byteLemma (P := fun x n => ((x &&& 15) <<< 2).toNat = n % 16 * 4) d4 b) (by omega)
    have h4 : urlOf 61 = 61 := rfl
    rw [b64url_eq]
    simp only [btoa, List.map_cons, List.map_nil, h1.1, h2.1, h3.1, h4]
    rw [List.filter_cons_of_pos (by simpa using h1.2), List.filter_cons_of_pos (by simpa using h2.2),
      List.filter_cons_of_pos (by simpa using h3.2), List.filter_cons_of_neg (by simp), List.filter_nil]
    simp only [base64url, List.length_cons, List.length_nil, Nat.zero_add, Nat.reduceAdd, Nat.reduceDiv, Nat.reduceMul, Nat.zero_mul,
      Nat.reduceSub, Nat.reducePow, digits64, beNat, List.foldl_cons, List.foldl_nil, List.nil_append, List.cons_append, List.map_cons,
      List.map_nil, List.cons.injEq, and_true]
    exact ⟨congrArg urlChar (by omega), congrArg urlChar (by omega), congrArg urlChar (by omega)⟩
  | a :: b :: c :: rest => by
    have ha := a.toNat_lt
    have hb := b.toNat_lt
    have hc := c.toNat_lt
    have h1 := urlOf_base64 (a >>> 2) (a.toNat / 4) (Base32.byteLemma (P := fun x n => (x >>> 2).toNat = n / 4) d1 a) (by omega)
    have h2 := urlOf_base64 _ _ (d23 a b) (by omega)
    have h3 := urlOf_base64 _ _ (d45 b c) (by omega)
    have h4 := urlOf_base64 (c &&& 63) (c.toNat % 64) (Base32.byteLemma (P := fun x n => (x &&& 63).toNat = n % 64) d6 c) (by omega)
    rw [base64url_cons, ← b64url_rfc rest, b64url_eq, b64url_eq]
    simp only [btoa, List.map_cons, h1.1, h2.1, h3.1, h4.1]
    rw [List.filter_cons_of_pos (by simpa using h1.2), List.filter_cons_of_pos (by simpa using h2.2),
      List.filter_cons_of_pos (by simpa using h3.2), List.filter_cons_of_pos (by simpa using h4.2)]
    simp only [digits64, beNat, List.foldl_cons, List.foldl_nil, List.nil_append, List.cons_append, List.map_cons,
      List.map_nil, List.cons.injEq, and_true]
    exact ⟨congrArg urlChar (by omega), congrArg urlChar (by omega), congrArg urlChar (by omega), congrArg urlChar (by omega)⟩

theorem dohUrl_get (endpoint q : Bytes) : dohUrl endpoint q = dohGet endpoint q := by
  unfold dohUrl dohGet
  rw [b64url_rfc, List.append_assoc]

/-! ### The course of a lookup -/

section
variable {dbg : Bool} {p : Platform} {fuel : Nat} {js : Js} {endpoint : Bytes} {fetch : Nat → Bytes → Fetch} {n : Name} {ty : UInt16}

theorem Spec.Answered.length {asked bodies : List Bytes} (h : Answered endpoint fetch asked bodies) : bodies.length = asked.length := by
  induction h with
  | nil => rfl
  | snoc _ _ ih => simp [ih]

/-- Where a lookup stands when `send_next_query` is called. -/
structure DohState (dbg : Bool) (endpoint : Bytes) (fetch : Nat → Bytes → Fetch) (n : Name) (ty : UInt16) (asked bodies : List Bytes)
    (w : WasmBuilder) : Prop where
  answered : Answered endpoint fetch asked bodies
  run : ∃ acc rej, Run dbg n ty acc rej (asked ++ w.queue) w.builder ∧ Interleaving acc rej (bodies.filter (fun r => decide (r.length < 65535)))

theorem dohState_next {asked bodies queue : List Bytes} {b : ProofBuilder} {q body : Bytes} {w' : WasmBuilder}
    (h : DohState dbg endpoint fetch n ty asked bodies ⟨b, q :: queue⟩) (hf : fetch asked.length (dohGet endpoint q) = .body body)
    (hp : processQueryResponse dbg ⟨b, queue⟩ body = some w') :
    DohState dbg endpoint fetch n ty (asked ++ [q]) (bodies ++ [body]) w' := by
  obtain ⟨h1, acc, rej, h2, h3⟩ := h
  refine ⟨h1.snoc hf, ?_⟩
  rw [List.filter_append]
  simp only at h2
  rcases processQueryResponse_some hp with ⟨hl, rfl⟩ | ⟨hl, more, hr, hq⟩ | ⟨hl, hr, hq⟩
  · rw [List.filter_cons_of_neg (by simp; omega), List.filter_nil, List.append_nil]
    exact ⟨acc, rej, by simpa using h2, h3⟩
  · rw [List.filter_cons_of_pos (by simpa using hl), List.filter_nil]
    refine ⟨_, _, ?_, h3.left body⟩
    have := h2.accept hr
    rw [hq]
    simpa using this
  · rw [List.filter_cons_of_pos (by simpa using hl), List.filter_nil]
    refine ⟨_, _, ?_, h3.right body⟩
    have := h2.reject hr
    rw [hq]
    simpa using this

/-- How a lookup ends: with all queries answered, or with a request that failed. -/
def DohEnd (dbg : Bool) (p : Platform) (fuel : Nat) (js : Js) (endpoint : Bytes) (fetch : Nat → Bytes → Fetch) (n : Name) (ty : UInt16)
    (urls : List Bytes) (out : JsOutcome) : Prop :=
  ∃ asked bodies w, DohState dbg endpoint fetch n ty asked bodies w ∧
    ((w.queue = [] ∧ urls = asked.map (dohGet endpoint) ∧ dohFinish dbg p fuel js 0 w = some out) ∨
     (∃ q queue, w.queue = q :: queue ∧ urls = (asked ++ [q]).map (dohGet endpoint) ∧
      ((∃ e, fetch asked.length (dohGet endpoint q) = .throws e ∧ out = .returns (dohFailed e)) ∨
       (∃ code, fetch asked.length (dohGet endpoint q) = .status code ∧
         out = .returns (dohFailed (ascii "Query returned HTTP " ++ decimal code))) ∨
       (∃ body, fetch asked.length (dohGet endpoint q) = .body body ∧ processQueryResponse dbg ⟨w.builder, queue⟩ body = none ∧
         out = .returns (dohFailed js.trap)))))

theorem sendNextQuery_end : ∀ (rounds : Nat) (asked bodies : List Bytes) (w : WasmBuilder) (urls : List Bytes) (out : JsOutcome),
    DohState dbg endpoint fetch n ty asked bodies w →
    sendNextQuery dbg p fuel js endpoint fetch rounds asked.length 0 w = some (urls, out) →
    DohEnd dbg p fuel js endpoint fetch n ty (asked.map (dohGet endpoint) ++ urls) out
  | 0, _, _, _, _, _, _, h => nomatch h
  | rounds + 1, asked, bodies, w, urls, out, hs, h => by
    obtain ⟨b, queue⟩ := w
    cases queue with
    | nil =>
      simp only [sendNextQuery, getNextQuery] at h
      split at h
      · exact nomatch h
      · rename_i o ho
        simp only [Option.some.injEq, Prod.mk.injEq] at h
        obtain ⟨rfl, rfl⟩ := h
        exact ⟨asked, bodies, _, hs, Or.inl ⟨rfl, by simp, ho⟩⟩
    | cons q queue =>
      simp only [sendNextQuery, getNextQuery, dohUrl_get, show (0 : Int) + 1 - 1 = 0 from rfl] at h
      cases hf : fetch asked.length (dohGet endpoint q) with
      | throws e =>
        rw [hf] at h
        simp only [Option.some.injEq, Prod.mk.injEq] at h
        obtain ⟨rfl, rfl⟩ := h
        exact ⟨asked, bodies, _, hs, Or.inr ⟨q, queue, rfl, by simp, Or.inl ⟨e, hf, rfl⟩⟩⟩
      | status code =>
        rw [hf] at h
        simp only [Option.some.injEq, Prod.mk.injEq] at h
        obtain ⟨rfl, rfl⟩ := h
        exact ⟨asked, bodies, _, hs, Or.inr ⟨q, queue, rfl, by simp, Or.inr (Or.inl ⟨code, hf, rfl⟩)⟩⟩
      | body buf =>
        rw [hf] at h
        simp only at h
        cases hp : processQueryResponse dbg ⟨b, queue⟩ buf with
        | none =>
          rw [hp] at h
          simp only [Option.some.injEq, Prod.mk.injEq] at h
          obtain ⟨rfl, rfl⟩ := h
          exact ⟨asked, bodies, _, hs, Or.inr ⟨q, queue, rfl, by simp, Or.inr (Or.inr ⟨buf, hf, hp, rfl⟩)⟩⟩
        | some w' =>
          rw [hp] at h
          simp only at h
          have hs' := dohState_next hs hf hp
          cases hr : sendNextQuery dbg p fuel js endpoint fetch rounds (asked.length + 1) 0 w' with
          | none => rw [hr] at h; exact nomatch h
          | some r =>
            obtain ⟨urls', out'⟩ := r
            rw [hr] at h
            simp only [Option.some.injEq, Prod.mk.injEq] at h
            obtain ⟨rfl, rfl⟩ := h
            have := sendNextQuery_end rounds (asked ++ [q]) (bodies ++ [buf]) w' urls' out' hs' (by simpa using hr)
            simpa using this

/-- The domain passed to `init_proof_builder`. -/
theorem dotted_domain (domain : Bytes) (f : Bytes → Prop) :
    f (if (if domain.getLast? = some dot then domain else domain ++ [dot]).getLast? = some dot then
      (if domain.getLast? = some dot then domain else domain ++ [dot]) else (if domain.getLast? = some dot then domain else domain ++ [dot]) ++ [dot]) ↔
    f (if domain.getLast? = some 46 then domain else domain ++ [46]) := by
  by_cases h : domain.getLast? = some dot
  · rw [if_pos h, if_pos h]
  · rw [if_neg h, if_pos (by simp)]

theorem dohState_init {domain : Bytes} {w : WasmBuilder}
    (h : initProofBuilder (if domain.getLast? = some dot then domain else domain ++ [dot]) ty = some w) :
    ∃ n, DomainName domain n ∧ DohState dbg endpoint fetch n ty [] [] w := by
  unfold initProofBuilder at h
  split at h
  · rename_i n hn
    simp only [Option.some.injEq] at h
    subst h
    exact ⟨n, (tryFrom_denotes _ _).mp ((dotted_domain domain (fun d => Name.tryFrom d = some n)).mp hn), .nil, [], [], .new, .nil⟩
  · exact nomatch h

theorem initProofBuilder_none {domain : Bytes}
    (h : initProofBuilder (if domain.getLast? = some dot then domain else domain ++ [dot]) ty = none) : ¬ ∃ n, DomainName domain n := by
  unfold initProofBuilder at h
  split at h
  · exact nomatch h
  · rename_i hn
    rintro ⟨n, hd⟩
    rw [(dotted_domain domain (fun d => Name.tryFrom d = some n)).mpr ((tryFrom_denotes _ _).mpr hd)] at hn
    exact nomatch hn

theorem initProofBuilder_domain {domain : Bytes} (hd : DomainName domain n) :
    initProofBuilder (if domain.getLast? = some dot then domain else domain ++ [dot]) ty =
      some ⟨(ProofBuilder.new n ty).1, [(ProofBuilder.new n ty).2]⟩ := by
  unfold initProofBuilder
  rw [(dotted_domain domain (fun d => Name.tryFrom d = some n)).mpr ((tryFrom_denotes _ _).mpr hd)]

theorem dohType_iff (t : Bytes) (code : UInt16) : dohType t = some code ↔ NamesType t code := by
  unfold dohType NamesType dohTypes
  rw [lower_eq_map_fold]
  generalize t.map foldCase = x
  simp only [List.mem_cons, Prod.mk.injEq, List.not_mem_nil, or_false]
  by_cases h1 : x = ascii "txt"
  · subst h1
    rw [if_pos rfl]
    simp only [show ascii "txt" ≠ ascii "tlsa" by decide, show ascii "txt" ≠ ascii "a" by decide, show ascii "txt" ≠ ascii "aaaa" by decide]
    simp [eq_comm]
  rw [if_neg h1]
  by_cases h2 : x = ascii "tlsa"
  · subst h2
    rw [if_pos rfl]
    simp only [show ascii "tlsa" ≠ ascii "txt" by decide, show ascii "tlsa" ≠ ascii "a" by decide, show ascii "tlsa" ≠ ascii "aaaa" by decide]
    simp [eq_comm]
  rw [if_neg h2]
  by_cases h3 : x = ascii "a"
  · subst h3
    rw [if_pos rfl]
    simp only [show ascii "a" ≠ ascii "txt" by decide, show ascii "a" ≠ ascii "tlsa" by decide, show ascii "a" ≠ ascii "aaaa" by decide]
    simp [eq_comm]
  rw [if_neg h3]
  by_cases h4 : x = ascii "aaaa"
  · subst h4
    rw [if_pos rfl]
    simp only [show ascii "aaaa" ≠ ascii "txt" by decide, show ascii "aaaa" ≠ ascii "tlsa" by decide, show ascii "aaaa" ≠ ascii "a" by decide]
    simp [eq_comm]
  rw [if_neg h4]
  simp [h1, h2, h3, h4]

/-- With a round for every query that may be issued, the lookup is settled unless verification does not return. -/
theorem sendNextQuery_settles : ∀ (rounds : Nat) (asked bodies : List Bytes) (w : WasmBuilder),
    DohState dbg endpoint fetch n ty asked bodies w → 11 ≤ asked.length + rounds →
    sendNextQuery dbg p fuel js endpoint fetch rounds asked.length 0 w = none →
    ∃ asked bodies w proof, DohState dbg endpoint fetch n ty asked bodies w ∧ w.queue = [] ∧ getUnverifiedProof w = some proof ∧
      verifyByteStream dbg p fuel proof = none
  | 0, asked, bodies, w, hs, hr, _ => by
    obtain ⟨_, acc, rej, hrun, _⟩ := hs
    obtain ⟨_, _, _, _, hl⟩ := (run_inv hrun).queries
    rw [List.length_append] at hl
    omega
  | rounds + 1, asked, bodies, w, hs, hr, h => by
    obtain ⟨b, queue⟩ := w
    cases queue with
    | nil =>
      simp only [sendNextQuery, getNextQuery] at h
      split at h
      · rename_i hd
        rw [dohFinish, if_pos rfl] at hd
        split at hd
        · rename_i proof hproof
          split at hd
          · rename_i hv
            exact ⟨asked, bodies, _, proof, hs, rfl, hproof, hv⟩
          · split at hd <;> exact nomatch hd
          · exact nomatch hd
        · exact nomatch hd
      · exact nomatch h
    | cons q queue =>
      simp only [sendNextQuery, getNextQuery, dohUrl_get, show (0 : Int) + 1 - 1 = 0 from rfl] at h
      cases hf : fetch asked.length (dohGet endpoint q) with
      | throws e => rw [hf] at h; exact nomatch h
      | status code => rw [hf] at h; exact nomatch h
      | body buf =>
        rw [hf] at h
        simp only at h
        cases hp : processQueryResponse dbg ⟨b, queue⟩ buf with
        | none => rw [hp] at h; exact nomatch h
        | some w' =>
          rw [hp] at h
          simp only at h
          have hs' := dohState_next hs hf hp
          cases hn : sendNextQuery dbg p fuel js endpoint fetch rounds (asked.length + 1) 0 w' with
          | none => exact sendNextQuery_settles rounds (asked ++ [q]) (bodies ++ [buf]) w' hs' (by simp; omega) (by simpa using hn)
          | some r => obtain ⟨a, b⟩ := r; rw [hn] at h; exact nomatch h

end

/-! ### base64url can be decoded -/

theorem digits64_length : ∀ m x, (digits64 m x).length = m
  | 0, _ => rfl
  | m + 1, x => by rw [digits64, List.length_append, digits64_length m]; rfl

theorem digits64_lt : ∀ m x, ∀ d ∈ digits64 m x, d < 64
  | 0, _, d, h => by simp [digits64] at h
  | m + 1, x, d, h => by
    rw [digits64, List.mem_append, List.mem_singleton] at h
    rcases h with h | rfl
    · exact digits64_lt m _ d h
    · omega

theorem digits64_inj : ∀ m x y, x < 64 ^ m → y < 64 ^ m → digits64 m x = digits64 m y → x = y
  | 0, x, y, hx, hy, _ => by simp at hx hy; omega
  | m + 1, x, y, hx, hy, h => by
    rw [digits64, digits64] at h
    have h1 := List.append_inj_left' h rfl
    have h2 := List.append_inj_right' h rfl
    simp only [List.cons.injEq, and_true] at h2
    have := digits64_inj m (x / 64) (y / 64) (by rw [Nat.div_lt_iff_lt_mul (by decide)]; rw [Nat.pow_succ] at hx; exact hx)
      (by rw [Nat.div_lt_iff_lt_mul (by decide)]; rw [Nat.pow_succ] at hy; exact hy) h1
    omega

theorem urlChar_inj : ∀ a b : Fin 64, urlChar a.val = urlChar b.val → a = b := by decide +kernel

theorem map_urlChar_inj : ∀ {a b : List Nat}, (∀ x ∈ a, x < 64) → (∀ x ∈ b, x < 64) → a.map urlChar = b.map urlChar → a = b
  | [], [], _, _, _ => rfl
  | [], _ :: _, _, _, h => by simp at h
  | _ :: _, [], _, _, h => by simp at h
  | x :: a, y :: b, ha, hb, h => by
    simp only [List.map_cons, List.cons.injEq] at h
    have := urlChar_inj ⟨x, ha x (by simp)⟩ ⟨y, hb y (by simp)⟩ h.1
    simp only [Fin.mk.injEq] at this
    rw [this, map_urlChar_inj (fun z hz => ha z (by simp [hz])) (fun z hz => hb z (by simp [hz])) h.2]

theorem beNat_inj : ∀ {a b : Bytes}, a.length = b.length → beNat a = beNat b → a = b
  | [], [], _, _ => rfl
  | [], _ :: _, h, _ => by simp at h
  | _ :: _, [], h, _ => by simp at h
  | x :: a, y :: b, hl, h => by
    have hl' : a.length = b.length := by simpa using hl
    have h1 := Base32.beNat_append [x] a
    have h2 := Base32.beNat_append [y] b
    rw [List.singleton_append] at h1 h2
    rw [h1, h2, hl'] at h
    have ha := Base32.beNat_lt a
    have hb := Base32.beNat_lt b
    rw [hl'] at ha
    have e1 : beNat [x] = x.toNat := by simp [beNat]
    have e2 : beNat [y] = y.toNat := by simp [beNat]
    rw [e1, e2] at h
    have hd := congrArg (· / 256 ^ b.length) h
    have hm := congrArg (· % 256 ^ b.length) h
    simp only [Nat.mul_comm _ (256 ^ b.length)] at hd hm
    rw [Nat.mul_add_div (Nat.pow_pos (by decide)), Nat.mul_add_div (Nat.pow_pos (by decide)), Nat.div_eq_of_lt ha, Nat.div_eq_of_lt hb] at hd
    rw [Nat.mul_add_mod, Nat.mul_add_mod, Nat.mod_eq_of_lt ha, Nat.mod_eq_of_lt hb] at hm
    rw [beNat_inj hl' hm, UInt8.toNat_inj.mp (by omega : x.toNat = y.toNat)]

theorem base64url_inj {a b : Bytes} (h : base64url a = base64url b) : a = b := by
  have hl := congrArg List.length h
  unfold base64url at h hl
  simp only [List.length_map, digits64_length] at hl
  have hl' : a.length = b.length := by omega
  simp only [← hl'] at h
  have h := map_urlChar_inj (digits64_lt _ _) (digits64_lt _ _) h
  have bound : ∀ c : Bytes, c.length = a.length →
      beNat c * 2 ^ (6 * ((8 * a.length + 5) / 6) - 8 * a.length) < 64 ^ ((8 * a.length + 5) / 6) := by
    intro c hc
    have hp : 256 ^ a.length * 2 ^ (6 * ((8 * a.length + 5) / 6) - 8 * a.length) = 64 ^ ((8 * a.length + 5) / 6) := by
      rw [show (256 : Nat) = 2 ^ 8 by rfl, show (64 : Nat) = 2 ^ 6 by rfl, ← Nat.pow_mul, ← Nat.pow_mul, ← Nat.pow_add]
      congr 1; omega
    rw [← hp]
    have := Base32.beNat_lt c
    rw [hc] at this
    exact Nat.mul_lt_mul_of_pos_right this (Nat.pow_pos (by decide))
  have h := digits64_inj _ _ _ (bound a rfl) (bound b hl'.symm) h
  exact beNat_inj hl' (Nat.eq_of_mul_eq_mul_right (Nat.pow_pos (by decide)) h)

/-! ### The values survive `JSON.parse` and `JSON.stringify` -/

theorem portable_bytesArr (bs : Bytes) : Portable (bytesArr bs) := by
  refine .arr ?_
  intro v hv
  obtain ⟨b, _, rfl⟩ := List.mem_map.mp hv
  have := b.toNat_lt
  exact .nat (by omega)

theorem portable_types {m : NSecTypeMask} {v : JVal} (h : TypesVal m v) : Portable v := by
  obtain ⟨ts, vs, _, _, rfl, hl, hv⟩ := h
  refine .arr ?_
  intro v hm
  obtain ⟨i, hi, rfl⟩ := List.getElem_of_mem hm
  have hi' : i < ts.length := by omega
  have := hv (ts[i], vs[i]) (by
    have : (ts.zip vs)[i]'(by simp; omega) ∈ ts.zip vs := List.getElem_mem _
    simpa using this)
  rcases this with ⟨m, _, e⟩ | ⟨_, e⟩
  · simp only at e
    rw [e]
    exact .str
  · simp only at e
    rw [e]
    have := ts[i].toNat_lt
    exact .nat (by omega)

/-- An object with literal member names. -/
theorem portable_obj {ms : List (Bytes × JVal)} (h1 : (ms.map Prod.fst).Nodup)
    (h2 : ∀ k ∈ ms.map Prod.fst, ∃ c ∈ k, ¬ (48 ≤ c.toNat ∧ c.toNat ≤ 57)) (h3 : ∀ v ∈ ms.map Prod.snd, Portable v) : Portable (.obj ms) :=
  .obj h1 (fun _ hm => h2 _ (List.mem_map_of_mem hm)) (fun _ hm => h3 _ (List.mem_map_of_mem hm))

theorem portable_record {r : RR} {ms : List (Bytes × JVal)} (h : JsonOf r ms) : Portable (.obj ms) := by
  have n8 : ∀ x : UInt8, Portable (.nat x.toNat) := fun x => .nat (by have := x.toNat_lt; omega)
  have n16 : ∀ x : UInt16, Portable (.nat x.toNat) := fun x => .nat (by have := x.toNat_lt; omega)
  have n32 : ∀ x : UInt32, Portable (.nat x.toNat) := fun x => .nat (by have := x.toNat_lt; omega)
  have s : ∀ x : Bytes, Portable (.str x) := fun _ => .str
  cases r with
  | a r =>
    obtain rfl := h
    refine portable_obj (by simp only [List.map_cons, List.map_nil]; decide) (by simp only [List.map_cons, List.map_nil]; decide) ?_
    simp [s, portable_bytesArr]
  | aaaa r =>
    obtain rfl := h
    refine portable_obj (by simp only [List.map_cons, List.map_nil]; decide) (by simp only [List.map_cons, List.map_nil]; decide) ?_
    simp [s, portable_bytesArr]
  | ns r =>
    obtain rfl := h
    refine portable_obj (by simp only [List.map_cons, List.map_nil]; decide) (by simp only [List.map_cons, List.map_nil]; decide) ?_
    simp [s]
  | txt r =>
    obtain ⟨c, hc, rfl⟩ := h
    have : Portable c := by
      rcases hc with ⟨_, rfl⟩ | ⟨_, rfl⟩
      · exact .str
      · exact portable_bytesArr _
    refine portable_obj (by simp only [List.map_cons, List.map_nil]; decide) (by simp only [List.map_cons, List.map_nil]; decide) ?_
    simp [s, this]
  | tlsa r =>
    obtain ⟨c, hc, rfl⟩ := h
    refine portable_obj (by simp only [List.map_cons, List.map_nil]; decide) (by simp only [List.map_cons, List.map_nil]; decide) ?_
    simp [s, n8]
  | cname r =>
    obtain rfl := h
    refine portable_obj (by simp only [List.map_cons, List.map_nil]; decide) (by simp only [List.map_cons, List.map_nil]; decide) ?_
    simp [s]
  | dname r =>
    obtain rfl := h
    refine portable_obj (by simp only [List.map_cons, List.map_nil]; decide) (by simp only [List.map_cons, List.map_nil]; decide) ?_
    simp [s]
  | dnskey r =>
    obtain ⟨c, hc, rfl⟩ := h
    refine portable_obj (by simp only [List.map_cons, List.map_nil]; decide) (by simp only [List.map_cons, List.map_nil]; decide) ?_
    simp [s, n8, n16]
  | ds r =>
    obtain ⟨c, hc, rfl⟩ := h
    refine portable_obj (by simp only [List.map_cons, List.map_nil]; decide) (by simp only [List.map_cons, List.map_nil]; decide) ?_
    simp [s, n8, n16]
  | rrsig r =>
    obtain ⟨c, hc, rfl⟩ := h
    refine portable_obj (by simp only [List.map_cons, List.map_nil]; decide) (by simp only [List.map_cons, List.map_nil]; decide) ?_
    simp [s, n8, n16, n32]
  | nsec r =>
    obtain ⟨c, hc, rfl⟩ := h
    have := portable_types hc
    refine portable_obj (by simp only [List.map_cons, List.map_nil]; decide) (by simp only [List.map_cons, List.map_nil]; decide) ?_
    simp [s, this]
  | nsec3 r =>
    obtain ⟨c, hc, rfl⟩ := h
    have := portable_types hc
    refine portable_obj (by simp only [List.map_cons, List.map_nil]; decide) (by simp only [List.map_cons, List.map_nil]; decide) ?_
    simp [s, n8, n16, this, portable_bytesArr]

theorem portable_verified {v : Verified} {j : JVal} (h : VerifiedVal v j) (h1 : v.validFrom ≤ 2 ^ 53) (h2 : v.expires ≤ 2 ^ 53) :
    Portable j := by
  obtain ⟨objs, hl, ho, rfl⟩ := h
  have h3 := v.maxCacheTtl.toNat_lt
  have arr : Portable (.arr (objs.map .obj)) := by
    refine .arr ?_
    intro x hx
    obtain ⟨ms, hm, rfl⟩ := List.mem_map.mp hx
    obtain ⟨i, hi, rfl⟩ := List.getElem_of_mem hm
    have hi' : i < v.verifiedRrs.length := by omega
    refine portable_record (ho (v.verifiedRrs[i], objs[i]) ?_)
    have : (v.verifiedRrs.zip objs)[i]'(by simp; omega) ∈ v.verifiedRrs.zip objs := List.getElem_mem _
    simpa using this
  refine portable_obj (by simp only [List.map_cons, List.map_nil]; decide) (by simp only [List.map_cons, List.map_nil]; decide) ?_
  intro x hx
  simp only [List.map_cons, List.map_nil, List.mem_cons, List.not_mem_nil, or_false] at hx
  rcases hx with rfl | rfl | rfl | rfl
  · exact .nat h1
  · exact .nat h2
  · exact .nat (by omega)
  · exact arr

theorem portable_error (e : Bytes) : Portable (.obj [(ascii "error", .str e)]) :=
  portable_obj (by simp) (by simp only [List.map_cons, List.map_nil]; decide) (by simp [Portable.str])

end Dnssec
