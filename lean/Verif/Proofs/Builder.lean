import Verif.Proofs.Response
import Verif.Proofs.QueryBuf
import Verif.Proofs.Sort
import Verif.Proofs.Parsed

/-! # `ProofBuilder` and the TCP driver -/

namespace Dnssec

open Spec

variable {dbg : Bool} {name : Name} {ty : UInt16}

theorem mem_dedup {α : Type} [DecidableEq α] (a : α) : ∀ l : List α, a ∈ dedup l ↔ a ∈ l
  | [] => by simp [dedup]
  | [x] => by simp [dedup]
  | x :: y :: ys => by
    rw [dedup]
    split
    · rename_i h
      subst h
      rw [mem_dedup a (x :: ys)]; simp
    · rw [List.mem_cons, mem_dedup a (y :: ys), List.mem_cons (b := x)]

/-- The queries asked about one signer. -/
def asks (k : Name) : List Bytes := (questions k).map (fun q => queryBytes q.1 q.2)

/-- The number of queries asked about a list of signers. -/
def cost (ks : List Name) : Nat := (ks.map (fun k => (questions k).length)).sum

theorem cost_append (a b : List Name) : cost (a ++ b) = cost a + cost b := by simp [cost]

theorem asks_length (ks : List Name) : (ks.flatMap asks).length = cost ks := by
  rw [List.length_flatMap]
  simp [asks, cost]

theorem asks_root {k : Name} (h : k.bytes = [dot]) : asks k = [queryBytes k dnskeyType] := by
  unfold asks questions
  rw [if_pos h]; rfl

theorem asks_other {k : Name} (h : k.bytes ≠ [dot]) : asks k = [queryBytes k dnskeyType, queryBytes k dsType] := by
  unfold asks questions
  rw [if_neg h]; rfl

namespace ProofBuilder

/-- The builder after asking about the new signers. -/
def asked (b : ProofBuilder) (new : List Name) : ProofBuilder :=
  { b with pending := b.pending + cost new, made := b.made + cost new, requested := b.requested ++ new }

theorem asked_asked (b : ProofBuilder) (x y : List Name) : (b.asked x).asked y = b.asked (x ++ y) := by
  simp [asked, cost_append, Nat.add_assoc]

theorem requestLoop_eq : ∀ (ks : List Name) (b : ProofBuilder) (qs : List Bytes), ∃ new, new.Nodup ∧ (∀ k ∈ new, k ∉ b.requested) ∧
    (∀ k, k ∈ b.requested ++ new ↔ k ∈ b.requested ∨ k ∈ ks) ∧ requestLoop ks b qs = (b.asked new, qs ++ new.flatMap asks)
  | [], b, qs => ⟨[], by simp, by simp, by simp, by simp [requestLoop, asked, cost]⟩
  | k :: ks, b, qs => by
    rw [requestLoop]
    split
    · rename_i h
      obtain ⟨new, h1, h2, h3, h4⟩ := requestLoop_eq ks b qs
      refine ⟨new, h1, h2, ?_, h4⟩
      intro x
      rw [h3, List.mem_cons]
      constructor
      · rintro (a | a)
        · exact Or.inl a
        · exact Or.inr (Or.inr a)
      · rintro (a | rfl | a)
        · exact Or.inl a
        · exact Or.inl h
        · exact Or.inr a
    · rename_i h
      have key : ∀ qs', ∃ new, new.Nodup ∧ (∀ k' ∈ new, k' ∉ b.requested) ∧
          (∀ k', k' ∈ b.requested ++ new ↔ k' ∈ b.requested ∨ k' ∈ k :: ks) ∧
          requestLoop ks (b.asked [k]) qs' = (b.asked new, qs' ++ (new.tail).flatMap asks) ∧ new = k :: new.tail := by
        intro qs'
        obtain ⟨new, h1, h2, h3, h4⟩ := requestLoop_eq ks (b.asked [k]) qs'
        have hr : (b.asked [k]).requested = b.requested ++ [k] := rfl
        rw [hr] at h2 h3
        refine ⟨k :: new, ?_, ?_, ?_, ?_, rfl⟩
        · rw [List.nodup_cons]
          exact ⟨fun hk => h2 k hk (by simp), h1⟩
        · intro x hx
          rcases List.mem_cons.mp hx with rfl | hx
          · exact h
          · exact fun hc => h2 x hx (by simp [hc])
        · intro x
          have := h3 x
          rw [List.append_assoc] at this
          simp only [List.singleton_append] at this
          rw [this, List.mem_append, List.mem_singleton, List.mem_cons, or_assoc]
        · rw [h4, asked_asked]; rfl
      by_cases hd : k.bytes = [dot]
      · have e : b.asked [k] = { b with pending := b.pending + 1, made := b.made + 1, requested := b.requested ++ [k] } := by
          have : cost [k] = 1 := by simp [cost, questions, hd]
          simp [asked, this]
        obtain ⟨new, h1, h2, h3, h4, h5⟩ := key (qs ++ [queryBytes k dnskeyType])
        refine ⟨new, h1, h2, h3, ?_⟩
        simp only [hd, ne_eq, not_true_eq_false, if_false]
        rw [← e, h4, h5]
        simp [asks_root hd]
      · have e : b.asked [k] = { b with pending := b.pending + 1 + 1, made := b.made + 1 + 1, requested := b.requested ++ [k] } := by
          have : cost [k] = 2 := by simp [cost, questions, hd]
          simp [asked, this]
        obtain ⟨new, h1, h2, h3, h4, h5⟩ := key (qs ++ [queryBytes k dnskeyType] ++ [queryBytes k dsType])
        refine ⟨new, h1, h2, h3, ?_⟩
        simp only [hd, ne_eq, not_false_eq_true, if_true]
        rw [← e, h4, h5]
        simp [asks_other hd]

/-- What `process_response` does when it succeeds. -/
theorem processResponse_ok {b b' : ProofBuilder} {resp : Bytes} {more : List Bytes} :
    b.processResponse dbg resp = (b', .ok more) → ∃ recs ttl new, 0 < b.pending ∧ Contributes dbg resp recs ∧ IsMinTtl ttl recs ∧
      new.Nodup ∧ (∀ k ∈ new, k ∉ b.requested) ∧ (∀ k, k ∈ b.requested ++ new ↔ k ∈ b.requested ∨ k ∈ signers recs) ∧
      b' = { proof := b.proof ++ encode recs, minTtl := min b.minTtl ttl, requested := b.requested ++ new,
             pending := b.pending - 1 + cost new, made := b.made + cost new } ∧
      more = if b.made + cost new ≤ 10 then new.flatMap asks else [] := by
  intro h
  unfold processResponse at h
  split at h
  · simp at h
  · rename_i hp
    cases hh : handleResponse dbg resp b.proof [] with
    | mk pn r =>
      obtain ⟨proof, names⟩ := pn
      rw [hh] at h
      cases r with
      | err x => simp at h
      | panic => simp at h
      | ok ttl =>
        simp only at h
        obtain ⟨recs, hc, e1, e2, ht⟩ := (handleResponse_ok_iff _ _ _ _ _).mp hh
        obtain ⟨new, h1, h2, h3, h4⟩ := requestLoop_eq (dedup (sortBy Name.cmp names))
          { b with proof := proof, minTtl := min b.minTtl ttl, pending := b.pending - 1 } []
        rw [h4] at h
        refine ⟨recs, ttl, new, by omega, hc, ht, h1, h2, ?_, ?_, ?_⟩
        · intro k
          have hk : k ∈ dedup (sortBy Name.cmp names) ↔ k ∈ signers recs := by
            rw [mem_dedup, (sortBy_perm _ _).mem_iff, e2, List.nil_append]
          rw [← hk]
          exact h3 k
        · by_cases hm : b.made + cost new ≤ maxRequests
          · rw [if_pos (by exact hm)] at h
            simp only [asked, Prod.mk.injEq] at h
            rw [← h.1, e1]
          · rw [if_neg (by exact hm)] at h
            simp only [asked, Prod.mk.injEq] at h
            rw [← h.1, e1]
        · by_cases hm : b.made + cost new ≤ maxRequests
          · rw [if_pos (by exact hm)] at h
            simp only [asked, Prod.mk.injEq, Res.ok.injEq, List.nil_append] at h
            rw [if_pos (by exact hm)]; exact h.2.symm
          · rw [if_neg (by exact hm)] at h
            simp only [asked, Prod.mk.injEq, Res.ok.injEq] at h
            rw [if_neg (by exact hm)]; exact h.2.symm

/-- Conversely a message that contributes something is accepted while responses are outstanding. -/
theorem processResponse_accepts {b : ProofBuilder} {resp : Bytes} {recs : List (RR × UInt32)} (hp : 0 < b.pending)
    (hc : Contributes dbg resp recs) : ∃ b' more, b.processResponse dbg resp = (b', .ok more) := by
  have hne := contributes_ne_nil hc
  have hm : IsMinTtl (recs.foldl (fun t r => min t r.2) 0xffffffff) recs := foldl_min_isMin hne _ (fun r _ => le_max32 _)
  have hh := (handleResponse_ok_iff (dbg := dbg) (resp := resp) b.proof _ [] _ _).mpr ⟨recs, hc, rfl, rfl, hm⟩
  unfold processResponse
  rw [if_neg (by omega), hh]
  simp only
  split
  · exact ⟨_, _, rfl⟩
  · exact ⟨_, _, rfl⟩

/-- When it fails, only the proof may have changed. -/
theorem processResponse_err {b b' : ProofBuilder} {resp : Bytes} (h : b.processResponse dbg resp = (b', .err ())) :
    (∃ recs, (∀ r ∈ recs, ReadFrom dbg resp r) ∧ b' = { b with proof := b.proof ++ encode recs }) ∧
      (b.pending = 0 ∨ ∀ recs, ¬ Contributes dbg resp recs) := by
  unfold processResponse at h
  split at h
  · rename_i hp
    simp only [Prod.mk.injEq, and_true] at h
    subst h
    exact ⟨⟨[], by simp, by simp [encode]⟩, Or.inl hp⟩
  · obtain ⟨recs, h1, h2⟩ := handleResponse_any (dbg := dbg) (resp := resp) b.proof []
    cases hh : handleResponse dbg resp b.proof [] with
    | mk pn r =>
      obtain ⟨proof, names⟩ := pn
      rw [hh] at h h2
      simp only at h2
      cases r with
      | err x =>
        simp only [Prod.mk.injEq, and_true] at h
        refine ⟨⟨recs, h1, by rw [← h, h2]⟩, Or.inr fun recs' hc => ?_⟩
        have hne := contributes_ne_nil hc
        have hm : IsMinTtl (recs'.foldl (fun t r => min t r.2) 0xffffffff) recs' := foldl_min_isMin hne _ (fun r _ => le_max32 _)
        have := (handleResponse_ok_iff (dbg := dbg) (resp := resp) b.proof _ [] _ _).mpr ⟨recs', hc, rfl, rfl, hm⟩
        rw [hh] at this
        simp at this
      | panic => simp at h
      | ok ttl =>
        simp only at h
        have := congrArg Prod.snd h
        split at this <;> simp at this

end ProofBuilder

open ProofBuilder

/-! ### Histories -/

/-- What is known about a history. -/
structure RunInv (dbg : Bool) (name : Name) (ty : UInt16) (acc rej qs : List Bytes) (b : ProofBuilder) : Prop where
  signers : AllSigners dbg acc b.requested
  made : b.made = 1 + cost b.requested
  pending : b.pending + acc.length = b.made
  queries : ∃ ks, ks <+: b.requested ∧ qs = queryBytes name ty :: ks.flatMap asks ∧ (b.made ≤ 10 → ks = b.requested) ∧ qs.length ≤ 10

theorem allSigners_nil (dbg : Bool) : AllSigners dbg [] [] := ⟨by simp, by simp⟩

theorem run_inv {acc rej qs : List Bytes} {b : ProofBuilder} (h : Run dbg name ty acc rej qs b) :
    RunInv dbg name ty acc rej qs b := by
  induction h with
  | new =>
    refine ⟨allSigners_nil dbg, rfl, rfl, [], by simp, rfl, fun _ => rfl, by simp⟩
  | reject _ h ih =>
    obtain ⟨⟨recs, _, rfl⟩, _⟩ := processResponse_err h
    exact ⟨ih.signers, ih.made, ih.pending, ih.queries⟩
  | @accept acc rej qs b b' resp more _ h ih =>
    obtain ⟨recs, ttl, new, hp, hc, _, n1, n2, n3, rfl, rfl⟩ := processResponse_ok h
    refine ⟨⟨?_, ?_⟩, ?_, ?_, ?_⟩
    · rw [List.nodup_append]
      exact ⟨ih.signers.1, n1, fun x hx y hy e => n2 y hy (e ▸ hx)⟩
    · intro k
      simp only
      rw [n3, ih.signers.2]
      constructor
      · rintro (⟨r, hr, h⟩ | h)
        · exact ⟨r, by simp [hr], h⟩
        · exact ⟨resp, by simp, recs, hc, h⟩
      · rintro ⟨r, hr, h⟩
        rcases List.mem_append.mp hr with hr | hr
        · exact Or.inl ⟨r, hr, h⟩
        · have hr := List.mem_singleton.mp hr
          rw [hr] at h
          obtain ⟨recs', hc', h⟩ := h
          have e := contributes_unique hc' hc
          rw [e] at h
          exact Or.inr h
    · simp only [cost_append]
      have := ih.made
      omega
    · simp only [List.length_append, List.length_singleton]
      have := ih.pending
      omega
    · obtain ⟨ks, k1, k2, k3, k4⟩ := ih.queries
      simp only
      by_cases hm : b.made + cost new ≤ 10
      · have e := k3 (by omega)
        subst e
        refine ⟨b.requested ++ new, by simp, ?_, fun _ => rfl, ?_⟩
        · rw [if_pos hm, k2]; simp
        · rw [if_pos hm, k2]
          have h1 := asks_length b.requested
          have h2 := asks_length new
          have := ih.made
          simp only [List.length_append, List.length_cons]
          omega
      · refine ⟨ks, k1.trans (by simp), ?_, fun h => absurd h hm, ?_⟩
        · rw [if_neg hm, List.append_nil]; exact k2
        · rw [if_neg hm, List.append_nil]; exact k4

theorem nodup_perm {a b : List Name} (ha : a.Nodup) (hb : b.Nodup) (h : ∀ x, x ∈ a ↔ x ∈ b) : a.Perm b := by
  induction a generalizing b with
  | nil =>
    cases b with
    | nil => exact .refl _
    | cons y ys => exact absurd ((h y).mpr (by simp)) (by simp)
  | cons x xs ih =>
    rw [List.nodup_cons] at ha
    have hx : x ∈ b := (h x).mp (by simp)
    refine List.Perm.trans (List.Perm.cons x (ih ha.2 (hb.erase x) ?_)) (List.perm_cons_erase hx).symm
    intro y
    rw [hb.mem_erase_iff, ← h y, List.mem_cons]
    constructor
    · intro hy
      refine ⟨?_, Or.inr hy⟩
      rintro rfl
      exact ha.1 hy
    · rintro ⟨h1, rfl | h2⟩
      · exact absurd rfl h1
      · exact h2

theorem cost_eq {acc : List Bytes} {a b : List Name} (ha : AllSigners dbg acc a) (hb : AllSigners dbg acc b) : cost a = cost b := by
  have := nodup_perm ha.1 hb.1 (fun x => (ha.2 x).trans (hb.2 x).symm)
  exact (this.map _).sum_nat

/-- Without rejected responses: the proof and the TTL. -/
theorem run_proof {acc rej qs : List Bytes} {b : ProofBuilder} (h : Run dbg name ty acc rej qs b) (hr : rej = []) :
    ∃ recss : List (List (RR × UInt32)), recss.length = acc.length ∧
      (∀ p ∈ acc.zip recss, Contributes dbg p.1 p.2) ∧ b.proof = encode recss.flatten ∧
      ((acc = [] ∧ b.minTtl = 0xffffffff) ∨ IsMinTtl b.minTtl recss.flatten) := by
  induction h with
  | new => exact ⟨[], rfl, by simp, rfl, Or.inl ⟨rfl, rfl⟩⟩
  | reject _ _ _ => simp at hr
  | @accept acc rej qs b b' resp more _ h ih =>
    obtain ⟨recs, ttl, new, hp, hc, ht, n1, n2, n3, rfl, rfl⟩ := processResponse_ok h
    obtain ⟨recss, h1, h2, h3, h4⟩ := ih hr
    refine ⟨recss ++ [recs], by simp [h1], ?_, ?_, Or.inr ?_⟩
    · intro p hp
      rw [List.zip_append h1.symm] at hp
      rcases List.mem_append.mp hp with hp | hp
      · exact h2 p hp
      · simp only [List.zip_cons_cons, List.zip_nil_right, List.mem_singleton] at hp
        subst hp
        exact hc
    · simp only [h3]; simp [encode]
    · have hf : (recss ++ [recs]).flatten = recss.flatten ++ recs := by simp
      rw [hf]
      obtain ⟨t1, r, hr', e⟩ := ht
      have hmin : (min b.minTtl ttl).toNat ≤ b.minTtl.toNat ∧ (min b.minTtl ttl).toNat ≤ ttl.toNat ∧
          (min b.minTtl ttl = b.minTtl ∧ b.minTtl.toNat ≤ ttl.toNat ∨ min b.minTtl ttl = ttl) := by
        have : min b.minTtl ttl = if b.minTtl ≤ ttl then b.minTtl else ttl := rfl
        rw [this]
        split
        · rename_i h; exact ⟨Nat.le_refl _, UInt32.le_iff_toNat_le.mp h, Or.inl ⟨rfl, UInt32.le_iff_toNat_le.mp h⟩⟩
        · rename_i h
          have := UInt32.lt_iff_toNat_lt.mp (UInt32.not_le.mp h)
          exact ⟨by omega, Nat.le_refl _, Or.inr rfl⟩
      rcases h4 with ⟨ha, hb⟩ | ⟨m1, x, hx, ex⟩
      · subst ha
        have : recss = [] := List.length_eq_zero_iff.mp h1
        subst this
        have hmt : min b.minTtl ttl = ttl := by
          rcases hmin.2.2 with ⟨h, h'⟩ | h
          · rw [hb] at h' ⊢
            have := le_max32 ttl
            have e' : (0xffffffff : UInt32) = ttl := UInt32.toNat_inj.mp (by omega)
            rw [← e']; rfl
          · exact h
        simp only [hmt, List.flatten_nil, List.nil_append]
        exact ⟨t1, r, hr', e⟩
      · constructor
        · intro y hy
          rcases List.mem_append.mp hy with hy | hy
          · have := m1 y hy; simp only; omega
          · have := t1 y hy; simp only; omega
        · simp only
          rcases hmin.2.2 with ⟨h, _⟩ | h
          · exact ⟨x, by simp [hx], by rw [h, ex]⟩
          · exact ⟨r, by simp [hr'], by rw [h, e]⟩

/-- In general, the proof is made of whole records of the responses. -/
theorem run_proof_any {acc rej qs : List Bytes} {b : ProofBuilder} (h : Run dbg name ty acc rej qs b) :
    ∃ recs : List (RR × UInt32), b.proof = encode recs ∧ ∀ r ∈ recs, ∃ resp ∈ acc ++ rej, ReadFrom dbg resp r := by
  have aux : ∀ {resp : Bytes} {recs : List (RR × UInt32)}, Contributes dbg resp recs → ∀ r ∈ recs, ReadFrom dbg resp r := by
    intro resp recs hc r hr
    obtain ⟨_, _, _, _, _, _, _, _, _, _, ans, auth, _, _, _, _, _, _, _, h1, h2, e⟩ := hc
    rw [e] at hr
    rcases List.mem_append.mp hr with hr | hr
    · exact records_readFrom h1 r hr
    · exact records_readFrom h2 r (List.mem_filter.mp hr).1
  induction h with
  | new => exact ⟨[], rfl, by simp⟩
  | @reject acc rej qs b b' resp _ h ih =>
    obtain ⟨⟨new, hn, rfl⟩, _⟩ := processResponse_err h
    obtain ⟨recs, e, hr⟩ := ih
    refine ⟨recs ++ new, by simp [e, encode], ?_⟩
    intro r hx
    rcases List.mem_append.mp hx with hx | hx
    · obtain ⟨p, hp, hq⟩ := hr r hx
      exact ⟨p, by rw [← List.append_assoc]; exact List.mem_append_left _ hp, hq⟩
    · exact ⟨resp, by simp, hn r hx⟩
  | @accept acc rej qs b b' resp more _ h ih =>
    obtain ⟨new, ttl, _, _, hc, _, _, _, _, rfl, rfl⟩ := processResponse_ok h
    obtain ⟨recs, e, hr⟩ := ih
    refine ⟨recs ++ new, by simp [e, encode], ?_⟩
    intro r hx
    rcases List.mem_append.mp hx with hx | hx
    · obtain ⟨p, hp, hq⟩ := hr r hx
      refine ⟨p, ?_, hq⟩
      rcases List.mem_append.mp hp with hp | hp
      · simp [hp]
      · simp [hp]
    · exact ⟨resp, by simp, aux hc r hx⟩

/-! ### TCP -/

theorem frame_eq (m : Bytes) (h : m.length ≤ 65535) : frame m = be16 (UInt16.ofNat m.length) ++ m := by
  have : (UInt16.ofNat m.length).toNat = m.length := by rw [UInt16.toNat_ofNat']; omega
  simp [frame, be16, this]

theorem readResponse_frame (m rest sent : Bytes) (w : Nat) (h : m.length ≤ 65535) :
    readResponse ⟨frame m ++ rest, w, sent⟩ = some (m, ⟨rest, w, sent⟩) := by
  have hb : (ofBe16 (UInt8.ofNat (m.length / 256)) (UInt8.ofNat (m.length % 256))).toNat = m.length := by
    unfold ofBe16
    rw [UInt16.toNat_ofNat', UInt8.toNat_ofNat', UInt8.toNat_ofNat']
    omega
  have h2 : (Stream.readExact ⟨frame m ++ rest, w, sent⟩ 2) =
      some ([UInt8.ofNat (m.length / 256), UInt8.ofNat (m.length % 256)], ⟨m ++ rest, w, sent⟩) := by
    unfold Stream.readExact frame
    simp
  unfold readResponse
  rw [h2]
  simp only [hb]
  unfold Stream.readExact
  simp

theorem sendQuery_eq (q : Bytes) (h : q.length ≤ 65535) (inc sent : Bytes) : ∀ w : Nat,
    sendQuery ⟨inc, w, sent⟩ q = if 2 ≤ w then some ⟨inc, w - 2, sent ++ frame q⟩ else none
  | 0 => rfl
  | 1 => rfl
  | n + 2 => by
    rw [frame_eq q h, if_pos (by omega)]
    simp [sendQuery, Stream.writeAll]

theorem sendAll_eq (inc : Bytes) : ∀ (qs : List Bytes), (∀ q ∈ qs, q.length ≤ 65535) → ∀ (w : Nat) (sent : Bytes),
    2 * qs.length ≤ w → sendAll ⟨inc, w, sent⟩ qs = some ⟨inc, w - 2 * qs.length, sent ++ (qs.map frame).flatten⟩
  | [], _, w, sent, _ => by simp [sendAll]
  | q :: qs, hl, w, sent, hw => by
    rw [List.length_cons] at hw
    rw [sendAll, sendQuery_eq q (hl q (by simp)), if_pos (by omega)]
    simp only
    rw [sendAll_eq inc qs (fun q hq => hl q (by simp [hq])) _ _ (by omega)]
    simp only [List.length_cons, List.map_cons, List.flatten_cons, List.append_assoc, Option.some.injEq, Stream.mk.injEq, and_true,
      true_and]
    omega

theorem sendQuery_frame {s s' : Stream} {q : Bytes} (h : q.length ≤ 65535) (hs : sendQuery s q = some s') :
    s'.sent = s.sent ++ frame q ∧ s'.incoming = s.incoming ∧ s.writesLeft = s'.writesLeft + 2 := by
  obtain ⟨inc, w, sent⟩ := s
  rw [sendQuery_eq q h] at hs
  split at hs
  · simp only [Option.some.injEq] at hs
    subst hs
    refine ⟨rfl, rfl, ?_⟩
    simp only
    omega
  · simp at hs

theorem sendAll_frames {qs : List Bytes} : ∀ {s s' : Stream}, (∀ q ∈ qs, q.length ≤ 65535) → sendAll s qs = some s' →
    s'.sent = s.sent ++ (qs.map frame).flatten ∧ s'.incoming = s.incoming := by
  induction qs with
  | nil => intro s s' _ h; simp only [sendAll, Option.some.injEq] at h; subst h; simp
  | cons q qs ih =>
    intro s s' hl h
    rw [sendAll] at h
    split at h
    · simp at h
    · rename_i s1 h1
      obtain ⟨a, b, _⟩ := sendQuery_frame (hl q (by simp)) h1
      obtain ⟨c, d⟩ := ih (fun q hq => hl q (by simp [hq])) h
      exact ⟨by rw [c, a]; simp, by rw [d, b]⟩

theorem readResponse_some {s s' : Stream} {m : Bytes} (h : readResponse s = some (m, s')) :
    s.incoming = frame m ++ s'.incoming ∧ m.length ≤ 65535 ∧ s'.sent = s.sent := by
  unfold readResponse at h
  split at h
  · rename_i a b s1 h1
    unfold Stream.readExact at h1 h
    split at h1
    · simp at h1
    · rename_i hlen
      simp only [Option.some.injEq, Prod.mk.injEq] at h1
      obtain ⟨e1, rfl⟩ := h1
      split at h
      · simp at h
      · rename_i hlen2
        simp only [Option.some.injEq, Prod.mk.injEq] at h
        obtain ⟨rfl, rfl⟩ := h
        have hinc : s.incoming = a :: b :: s.incoming.drop 2 := by
          rw [← List.take_append_drop 2 s.incoming, e1]; simp
        generalize hd : s.incoming.drop 2 = rest at *
        have ha := a.toNat_lt
        have hb := b.toNat_lt
        have ho : (ofBe16 a b).toNat = a.toNat * 256 + b.toNat := by
          unfold ofBe16; rw [UInt16.toNat_ofNat']; omega
        simp only at hlen2 ⊢
        have hl : (rest.take (ofBe16 a b).toNat).length = a.toNat * 256 + b.toNat := by
          rw [List.length_take, ho]; rw [ho] at hlen2; omega
        refine ⟨?_, by rw [hl]; omega, trivial⟩
        rw [hinc]
        unfold frame
        rw [hl]
        have h1 : UInt8.ofNat ((a.toNat * 256 + b.toNat) / 256) = a := by
          rw [← UInt8.toNat_inj, UInt8.toNat_ofNat']; omega
        have h2 : UInt8.ofNat ((a.toNat * 256 + b.toNat) % 256) = b := by
          rw [← UInt8.toNat_inj, UInt8.toNat_ofNat']; omega
        rw [h1, h2]
        simp
  · simp at h

/-! ### The driver -/

theorem queryBytes_length (n : Name) (ty : UInt16) (h : n.bytes.length ≤ 255) : (queryBytes n ty).length ≤ 283 := by
  rw [queryBytes_eq, queryMessage_length]
  have := writeName_length_le n.bytes
  omega

theorem readFrom_names {resp : Bytes} {r : RR × UInt32} (h : ReadFrom dbg resp r) :
    Obtainable r.1.name ∧ ∀ n ∈ rdataNames r.1, Obtainable n := by
  obtain ⟨inp, rest, h⟩ := h
  obtain ⟨rr, ttl⟩ := r
  obtain ⟨name, ty, data, r1, h1, _, _, h4⟩ := parseWirePacketRR_ok h
  obtain ⟨p1, _, p3, _⟩ := readRData_props h4
  exact ⟨p1 ▸ readName_obtainable h1, p3⟩

theorem contributes_readFrom {resp : Bytes} {recs : List (RR × UInt32)} (hc : Contributes dbg resp recs) :
    ∀ r ∈ recs, ReadFrom dbg resp r := by
  intro r hr
  obtain ⟨_, _, _, _, _, _, _, _, _, _, ans, auth, _, _, _, _, _, _, _, h1, h2, e⟩ := hc
  rw [e] at hr
  rcases List.mem_append.mp hr with hr | hr
  · exact records_readFrom h1 r hr
  · exact records_readFrom h2 r (List.mem_filter.mp hr).1

theorem signer_obtainable {resp : Bytes} {recs : List (RR × UInt32)} (hc : Contributes dbg resp recs) {k : Name}
    (hk : k ∈ signers recs) : Obtainable k := by
  unfold signers at hk
  rw [List.mem_filterMap] at hk
  obtain ⟨r, hr, e⟩ := hk
  have := (readFrom_names (contributes_readFrom hc r hr)).2
  split at e
  · rename_i s hs
    simp only [Option.some.injEq] at e
    exact this k (by rw [hs]; simp [rdataNames, e])
  · simp at e

theorem Spec.Obtainable.short {n : Name} (h : Obtainable n) : n.bytes.length ≤ 255 := h.nameText.1.short

theorem run_query_length {acc rej qs : List Bytes} {b : ProofBuilder} (hn : Obtainable name) (h : Run dbg name ty acc rej qs b) :
    ∀ q ∈ qs, q.length ≤ 283 := by
  have inv := run_inv h
  obtain ⟨ks, k1, rfl, _, _⟩ := inv.queries
  intro q hq
  rcases List.mem_cons.mp hq with rfl | hq
  · exact queryBytes_length _ _ hn.short
  · rw [List.mem_flatMap] at hq
    obtain ⟨k, hk, hq⟩ := hq
    obtain ⟨resp, _, recs, hc, hs⟩ := (inv.signers.2 k).mp (k1.subset hk)
    have := (signer_obtainable hc hs).short
    unfold asks at hq
    rw [List.mem_map] at hq
    obtain ⟨p, hp, rfl⟩ := hq
    have : p.1 = k := by
      unfold questions at hp
      split at hp <;> simp at hp
      · rw [hp]
      · rcases hp with rfl | rfl <;> rfl
    exact queryBytes_length _ _ (by rw [this]; assumption)

/-- The driver follows the history given by the frames it reads. -/
theorem buildProof_follows {acc rej qs : List Bytes} {b : ProofBuilder} (hn : Obtainable name) (h : Run dbg name ty acc rej qs b)
    (hr : rej = []) (hacc : ∀ m ∈ acc, m.length ≤ 65535) (hm : b.made ≤ 10) : ∀ (fuel w : Nat) (rest sent : Bytes),
    buildProof dbg (acc.length + fuel) ⟨(acc.map frame).flatten ++ rest, 2 * qs.length + w, sent⟩ name ty =
      driveLoop dbg fuel b ⟨rest, w, sent ++ (qs.map frame).flatten⟩ := by
  induction h with
  | new =>
    intro fuel w rest sent
    have hq : (queryBytes name ty).length ≤ 65535 := Nat.le_trans (queryBytes_length _ _ hn.short) (by decide)
    unfold buildProof
    simp only [ProofBuilder.new]
    rw [sendQuery_eq _ hq, if_pos (by simp)]
    simp [Nat.add_comm]
  | reject _ _ _ => simp at hr
  | @accept acc rej qs b b' resp more hrun h ih =>
    intro fuel w rest sent
    have hlen := run_query_length hn (Run.accept hrun h)
    obtain ⟨recs, ttl, new, hp, _, _, _, _, _, hb', hmore⟩ := processResponse_ok h
    have hmb : b.made ≤ 10 := by rw [hb'] at hm; simp only at hm; omega
    have := ih hr (fun m hm => hacc m (by simp [hm])) hmb (fuel + 1) (2 * more.length + w) (frame resp ++ rest) sent
    have e : (List.map frame (acc ++ [resp])).flatten ++ rest = (acc.map frame).flatten ++ (frame resp ++ rest) := by simp
    have e2 : (acc ++ [resp]).length + fuel = acc.length + (fuel + 1) := by simp; omega
    have e3 : 2 * (qs ++ more).length + w = 2 * qs.length + (2 * more.length + w) := by rw [List.length_append]; omega
    rw [e, e2, e3, this, driveLoop]
    have ha : b.awaiting = true := by
      simp only [awaiting, maxRequests, Bool.and_eq_true, decide_eq_true_eq]
      exact ⟨hp, hmb⟩
    rw [if_pos ha, readResponse_frame _ _ _ _ (hacc resp (by simp))]
    simp only [h]
    rw [sendAll_eq _ more (fun q hq => Nat.le_trans (hlen q (by simp [hq])) (by decide)) _ _ (by omega)]
    simp [Nat.add_sub_cancel_left]

/-- What the driver did when it returned `Ok`. -/
theorem driveLoop_ok (hn : Obtainable name) {s' : Stream} {r : Bytes × UInt32} : ∀ (fuel : Nat) (b : ProofBuilder) (s : Stream)
    (acc qs : List Bytes), Run dbg name ty acc [] qs b → driveLoop dbg fuel b s = some (s', .ok r) →
    ∃ acc' qs' b', Run dbg name ty (acc ++ acc') [] (qs ++ qs') b' ∧ b'.finish = some r ∧
      s.incoming = (acc'.map frame).flatten ++ s'.incoming ∧ s'.sent = s.sent ++ (qs'.map frame).flatten ∧
      ∀ m ∈ acc', m.length ≤ 65535
  | fuel, b, s, acc, qs, hrun, h => by
    by_cases ha : b.awaiting = true
    · cases fuel with
      | zero => rw [driveLoop, if_pos ha] at h; simp at h
      | succ fuel =>
        rw [driveLoop, if_pos ha] at h
        split at h
        · simp at h
        · rename_i resp s1 hr
          obtain ⟨i1, i2, i3⟩ := readResponse_some hr
          split at h
          · simp at h
          · simp at h
          · rename_i b1 more hp
            split at h
            · simp at h
            · rename_i s2 hs
              have hlen := run_query_length hn (Run.accept hrun hp)
              obtain ⟨j1, j2⟩ := sendAll_frames (fun q hq => Nat.le_trans (hlen q (by simp [hq])) (by decide)) hs
              obtain ⟨acc', qs', b', r1, r2, r3, r4, r5⟩ := driveLoop_ok hn fuel b1 s2 _ _ (Run.accept hrun hp) h
              refine ⟨resp :: acc', more ++ qs', b', ?_, r2, ?_, ?_, ?_⟩
              · rw [List.append_assoc, List.append_assoc] at r1
                exact r1
              · rw [i1, ← j2, r3]; simp
              · rw [r4, j1, i3]; simp
              · intro m hm
                rcases List.mem_cons.mp hm with rfl | hm
                · exact i2
                · exact r5 m hm
    · have h : (match b.finish with | some r => some (s, .ok r) | none => some (s, .err ())) =
          some (s', (.ok r : Res Unit (Bytes × UInt32))) := by
        cases fuel <;> (rw [driveLoop, if_neg ha] at h; exact h)
      split at h
      · rename_i r' hf
        simp only [Option.some.injEq, Prod.mk.injEq, Res.ok.injEq] at h
        obtain ⟨rfl, rfl⟩ := h
        exact ⟨[], [], b, by simpa using hrun, hf, by simp, by simp, by simp⟩
      · simp at h

theorem buildProof_ok (hn : Obtainable name) {s s' : Stream} {r : Bytes × UInt32} {fuel : Nat}
    (h : buildProof dbg fuel s name ty = some (s', .ok r)) :
    ∃ acc qs b, Run dbg name ty acc [] qs b ∧ b.finish = some r ∧
      s.incoming = (acc.map frame).flatten ++ s'.incoming ∧ s'.sent = s.sent ++ (qs.map frame).flatten ∧
      ∀ m ∈ acc, m.length ≤ 65535 := by
  unfold buildProof at h
  simp only at h
  split at h
  · simp at h
  · rename_i s1 hs
    have hq : (queryBytes name ty).length ≤ 65535 := Nat.le_trans (queryBytes_length _ _ hn.short) (by decide)
    obtain ⟨a1, a2, _⟩ := sendQuery_frame hq hs
    obtain ⟨acc', qs', b', r1, r2, r3, r4, r5⟩ := driveLoop_ok hn _ _ _ _ _ Run.new h
    exact ⟨acc', _, b', r1, r2, by rw [← a2]; exact r3, by rw [r4, a1]; simp [ProofBuilder.new], r5⟩

/-- The driver needs at most ten iterations, whatever the stream. -/
theorem driveLoop_returns : ∀ (fuel : Nat) (b : ProofBuilder) (s : Stream) (acc rej qs : List Bytes),
    Run dbg name ty acc rej qs b → 10 ≤ fuel + acc.length → driveLoop dbg fuel b s ≠ none
  | fuel, b, s, acc, rej, qs, hrun, hf => by
    have inv := run_inv hrun
    have hpend := inv.pending
    by_cases ha : b.awaiting = true
    · have ha' := ha
      simp only [awaiting, maxRequests, Bool.and_eq_true, decide_eq_true_eq] at ha'
      cases fuel with
      | zero => omega
      | succ fuel =>
        rw [driveLoop, if_pos ha]
        split
        · simp
        · split
          · simp
          · simp
          · rename_i b1 more hp
            split
            · simp
            · exact driveLoop_returns fuel b1 _ _ _ _ (Run.accept hrun hp) (by simp; omega)
    · cases fuel <;> (rw [driveLoop, if_neg ha]; split <;> simp)

end Dnssec
