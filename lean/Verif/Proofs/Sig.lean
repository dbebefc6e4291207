import Verif.Proofs.Sort
import Verif.Proofs.Misc
import Verif.Proofs.Stream
import Verif.Spec.Sig

/-! # `verify_rrsig` -/

namespace Dnssec

open Spec

/-- A list in which no record is greater than a later one, in the order used by the code (see C12). -/
def SortedM (rs : List RR) : Prop := rs.Pairwise (fun a b => a.partialCmp b ≠ .gt)

/-- The order in which records are signed. -/
abbrev sortRRs (rs : List RR) : List RR := sortBy RR.partialCmp rs

theorem sortRRs_perm (rs : List RR) : (sortRRs rs).Perm rs := sortBy_perm _ rs

theorem sortRRs_sorted (rs : List RR) : SortedM (sortRRs rs) :=
  sortBy_sorted (fun a b => partialCmp_swap a b) (fun h1 h2 => partialCmp_trans h1 h2) rs

theorem sorted_unique {l m : List RR} (h : l.Perm m) (hl : SortedM l) (hm : SortedM m) : l = m :=
  sorted_perm_unique (fun a b => partialCmp_swap a b) (fun a b => (partialCmp_eq_iff a b).mp) h hl hm

theorem sortRRs_of_perm {l m : List RR} (h : l.Perm m) : sortRRs l = sortRRs m :=
  sorted_unique ((sortRRs_perm l).trans (h.trans (sortRRs_perm m).symm)) (sortRRs_sorted l) (sortRRs_sorted m)

/-- Any sorting algorithm gives the result of the model. -/
theorem eq_sortRRs {l m : List RR} (h : l.Perm m) (hs : SortedM l) : l = sortRRs m :=
  sorted_unique (h.trans (sortRRs_perm m).symm) hs (sortRRs_sorted m)

theorem sortRRs_sorted_self {l : List RR} (hs : SortedM l) : sortRRs l = l := (eq_sortRRs (.refl l) hs).symm

theorem verifyRrsig_perm (p : Platform) (sig : RRSig) (keys : List DnsKey) {r1 r2 : List RR} (h : r1.Perm r2) :
    verifyRrsig p sig keys r1 = verifyRrsig p sig keys r2 := by
  have ha : r1.any (fun r => sig.ty != r.ty) = r2.any (fun r => sig.ty != r.ty) := by
    rw [Bool.eq_iff_iff, List.any_eq_true, List.any_eq_true]
    constructor
    · rintro ⟨x, hx, h1⟩; exact ⟨x, h.mem_iff.mp hx, h1⟩
    · rintro ⟨x, hx, h1⟩; exact ⟨x, h.mem_iff.mpr hx, h1⟩
  have hd : signedData sig r1 = signedData sig r2 := by
    unfold signedData
    rw [show sortBy RR.partialCmp r1 = sortBy RR.partialCmp r2 from sortRRs_of_perm h]
  have hk : verifyKeysLoop p sig r1 keys = verifyKeysLoop p sig r2 keys := by
    induction keys with
    | nil => rfl
    | cons k ks ih => rw [verifyKeysLoop, verifyKeysLoop, hd, ih]
  unfold verifyRrsig
  rw [ha, hk]

/-! ### What is signed -/

theorem signedOwner_iff {sig : RRSig} {r : RR} {ls : List Bytes} (h : HasLabels r.name ls) (o : Bytes) :
    signedOwner sig r = some o ↔ SignedOwner sig r.ty ls o := by
  unfold signedOwner
  simp only [h.labels_eq]
  by_cases hn : r.ty = nsecType
  · rw [if_neg (by simp [hn])]
    constructor
    · intro h1
      simp only [Option.some.injEq] at h1
      rw [← h1, h.writeName]
      exact .exact (Or.inr hn)
    · intro h1
      cases h1 with
      | exact => rw [h.writeName]
      | wildcard _ _ h2 => exact absurd hn h2
  · by_cases hl : ls.length = sig.labels.toNat
    · rw [if_neg (by simp [hl])]
      constructor
      · intro h1
        simp only [Option.some.injEq] at h1
        rw [← h1, h.writeName]
        exact .exact (Or.inl hl)
      · intro h1
        cases h1 with
        | exact => rw [h.writeName]
        | wildcard pre suf _ h2 h3 h4 =>
          have := List.length_pos_iff.mpr h3
          rw [h2, List.length_append] at hl; omega
    · rw [if_pos ⟨hn, hl⟩]
      by_cases hlt : ls.length < sig.labels.toNat
      · rw [if_pos hlt]
        simp only [reduceCtorEq, false_iff]
        intro h1
        cases h1 with
        | exact h2 => rcases h2 with h2 | h2
                      · exact hl h2
                      · exact hn h2
        | wildcard pre suf _ h2 h3 h4 => rw [h2, List.length_append] at hlt; omega
      · rw [if_neg hlt, h.trailing, if_pos (by omega)]
        have hd := h.drop (ls.length - sig.labels.toNat)
        have hwr : [1, 42] ++ writeName (text (ls.drop (ls.length - sig.labels.toNat))) =
            wire (ascii "*" :: ls.drop (ls.length - sig.labels.toNat)) := by
          rw [writeName_text hd.labels]
          rfl
        simp only [Option.map_some, Option.some.injEq, hwr]
        constructor
        · rintro rfl
          refine .wildcard (ls.take (ls.length - sig.labels.toNat)) _ hn (by simp) ?_ (by simp; omega)
          intro he
          have := congrArg List.length he
          simp at this
          omega
        · intro h1
          cases h1 with
          | exact h2 => rcases h2 with h2 | h2
                        · exact absurd h2 hl
                        · exact absurd h2 hn
          | wildcard pre suf _ h2 h3 h4 =>
            have : ls.drop (ls.length - sig.labels.toNat) = suf := by
              rw [h2, List.length_append, h4, Nat.add_sub_cancel, List.drop_left]
            rw [this]

theorem signedRecords_iff {sig : RRSig} : ∀ {rs : List RR} (_ : ∀ r ∈ rs, ∃ ls, HasLabels r.name ls)
    (_ : ∀ t, RR.txt t ∈ rs → t.data ≠ []) (b : Bytes), signedRecords sig rs = some b ↔ SignedRRs sig rs b
  | [], _, _, b => by
    simp only [signedRecords, Option.some.injEq]
    constructor
    · rintro rfl; exact .nil
    · intro h; cases h; rfl
  | r :: rs, hl, ht, b => by
    have ih := signedRecords_iff (sig := sig) (rs := rs) (fun x hx => hl x (by simp [hx])) (fun t h => ht t (by simp [h]))
    obtain ⟨ls, h⟩ := hl r (by simp)
    have hw := writeData_eq r (fun t e => ht t (by simp [e]))
    rw [signedRecords, hw]
    constructor
    · intro h1
      cases ho : signedOwner sig r with
      | none => rw [ho] at h1; simp at h1
      | some o =>
        rw [ho] at h1
        simp only [Option.map_eq_some_iff] at h1
        obtain ⟨rest, h2, rfl⟩ := h1
        have := SignedRRs.cons r rs ls o rest h ((signedOwner_iff h o).mp ho) ((ih rest).mp h2)
        simpa using this
    · intro h1
      cases h1 with
      | cons _ _ ms o rest g1 g2 g3 =>
        obtain rfl := g1.unique h
        rw [(signedOwner_iff h o).mpr g2]
        simp [(ih rest).mpr g3, Option.map_some]

theorem octetLt_irrefl (a : Bytes) : ¬ OctetLt a a := by
  rw [← cmpBytes_lt_iff, cmpBytes_eq_iff.mpr rfl]; simp

theorem sorted_iff {records l : List RR} (hp : Proper records) (ht : ∀ r ∈ records, ∀ r' ∈ records, r.ty = r'.ty)
    (h : ∀ r ∈ l, r ∈ records) : SortedM l ↔ Sorted l := by
  unfold SortedM Sorted
  apply List.Pairwise.iff_of_mem
  intro a b ha hb
  by_cases hab : a = b
  · subst hab
    rw [(partialCmp_eq_iff a a).mpr rfl]
    simp [octetLt_irrefl]
  · rcases hp.order b (h b hb) a (h a ha) (Ne.symm hab) with hty | ⟨n, n', rfl, rfl, ho⟩
    rotate_left
    · have hn : n'.name = n.name := hp.oneOwner _ (h _ ha) _ (h _ hb)
      simp only [RR.partialCmp, NS.cmp, Name.cmp, hn, cmpBytes_eq_iff.mpr, Ordering.eq_then]
      rw [← ho, ← cmpBytes_lt_iff, ← cmpBytes_swap]
      cases cmpBytes n.nameServer.bytes n'.nameServer.bytes <;> simp
    have hpl : plainType a = true := by
      rw [ht b (h b hb) a (h a ha)] at hty
      cases a <;> first | rfl | (exfalso; revert hty; simp only [RR.ty]; decide)
    rw [partialCmp_rdata a b (ht a (h a ha) b (h b hb)) (hp.oneOwner a (h a ha) b (h b hb)) hpl, ← cmpBytes_lt_iff, ← cmpBytes_swap]
    cases cmpBytes (rdata b) (rdata a) <;> simp

theorem signedData_iff {sig : RRSig} {records : List RR} (hk : ∃ ls, HasLabels sig.keyName ls)
    (hpr : Proper records) (hty : ∀ r ∈ records, r.ty = sig.ty) (msg : Bytes) :
    signedData sig records = some msg ↔ SignedMessage sig records msg := by
  obtain ⟨kls, hk⟩ := hk
  have hp : ∀ kls, HasLabels sig.keyName kls → ∀ body, sigPrefix sig ++ body =
      be16 sig.ty ++ [sig.alg, sig.labels] ++ be32 sig.origTtl ++ be32 sig.expiration ++ be32 sig.inception ++
      be16 sig.keyTag ++ wire kls ++ body := by
    intro kls hk body
    unfold sigPrefix
    rw [hk.writeName]
    simp
  have hl' : ∀ r ∈ sortRRs records, ∃ ls, HasLabels r.name ls := fun r hr => hpr.labels r ((sortRRs_perm records).mem_iff.mp hr)
  have ht' : ∀ t, RR.txt t ∈ sortRRs records → t.data ≠ [] := fun t hr => hpr.txt t ((sortRRs_perm records).mem_iff.mp hr)
  have hs : ∀ l : List RR, l.Perm records → (SortedM l ↔ Sorted l) := fun l hl =>
    sorted_iff hpr (fun r hr r' hr' => (hty r hr).trans (hty r' hr').symm) (fun r hr => hl.mem_iff.mp hr)
  unfold signedData
  rw [Option.map_eq_some_iff]
  constructor
  · rintro ⟨body, h1, rfl⟩
    exact ⟨kls, sortRRs records, body, hk, sortRRs_perm records, (hs _ (sortRRs_perm records)).mp (sortRRs_sorted records), (signedRecords_iff hl' ht' body).mp h1,
      hp kls hk body⟩
  · rintro ⟨kls', sorted, body, h1, h2, h3, h4, rfl⟩
    rw [eq_sortRRs h2 ((hs _ h2).mpr h3)] at h4
    exact ⟨body, (signedRecords_iff hl' ht' body).mpr h4, hp kls' h1 body⟩

/-! ### Keys -/

theorem zoneFlag_iff (f : UInt16) : (f &&& 0b100000000 != 0) = f.toNat.testBit 8 := by
  have h : ∀ x : Nat, (x &&& 256 != 0) = x.testBit 8 := by
    intro x
    cases hb : x.testBit 8 with
    | true =>
      rw [bne_iff_ne]
      intro h0
      have := congrArg (fun n => n.testBit 8) h0
      simp only [Nat.testBit_and, hb, Nat.zero_testBit] at this
      exact absurd this (by decide)
    | false =>
      have h0 : x &&& 256 = 0 := by
        apply Nat.eq_of_testBit_eq
        intro i
        rw [Nat.testBit_and, show (256 : Nat) = 2 ^ 8 from rfl, Nat.testBit_two_pow, Nat.zero_testBit]
        by_cases hi : 8 = i
        · subst hi; rw [hb]; rfl
        · simp [hi]
      rw [h0]; rfl
  rw [← h]
  rw [Bool.eq_iff_iff, bne_iff_ne, bne_iff_ne, Ne, Ne, ← UInt16.toNat_inj, UInt16.toNat_and]
  rfl

theorem keyEligible_iff (sig : RRSig) (k : DnsKey) : keyEligible sig k = true ↔ Eligible sig k := by
  unfold keyEligible
  simp only [Bool.and_eq_true, beq_iff_eq, zoneFlag_iff]
  rw [← UInt16.toNat_inj, keyTag_eq]
  constructor
  · rintro ⟨⟨⟨a, b⟩, c⟩, d⟩; exact ⟨a.symm, b, c, d⟩
  · rintro ⟨a, b, c, d⟩; exact ⟨⟨⟨a.symm, b⟩, c⟩, d⟩

theorem checkSig_ok_iff (p : Platform) (sig : RRSig) (k : DnsKey) (msg : Bytes) :
    checkSig p sig k msg = .ok () ↔ CryptoOk p sig.alg k.pubkey msg sig.signature := by
  have hv : ∀ b : Bool, ((if b then .ok () else .err .invalid : Res VErr Unit) = .ok ()) ↔ b = true := by
    intro b; cases b <;> simp
  unfold checkSig
  simp only []
  by_cases h8 : sig.alg = 8
  · rw [if_pos (Or.inl h8)]
    constructor
    · intro h
      cases hr : bytesToRsaPk k.pubkey with
      | none => rw [hr] at h; simp at h
      | some v =>
        obtain ⟨n, e⟩ := v
        rw [hr] at h
        simp only [h8, if_true, hv] at h
        obtain ⟨a, b, c⟩ := (bytesToRsaPk_iff _ _ _).mp hr
        exact .rsaSha256 n e h8 c a b h
    · intro h
      rcases h with ⟨n, e, _, h1, h2, h3, h4⟩ | ⟨_, _, h', _⟩ | ⟨h', _⟩ | ⟨h', _⟩ | ⟨h', _⟩
      · rw [(bytesToRsaPk_iff _ n e).mpr ⟨h2, h3, h1⟩]
        simp only [h8, if_true, hv]; exact h4
      all_goals (rw [h8] at h'; exact absurd h' (by decide))
  · by_cases h10 : sig.alg = 10
    · rw [if_pos (Or.inr h10)]
      constructor
      · intro h
        cases hr : bytesToRsaPk k.pubkey with
        | none => rw [hr] at h; simp at h
        | some v =>
          obtain ⟨n, e⟩ := v
          rw [hr] at h
          simp only [h8, if_false, hv] at h
          obtain ⟨a, b, c⟩ := (bytesToRsaPk_iff _ _ _).mp hr
          exact .rsaSha512 n e h10 c a b h
      · intro h
        rcases h with ⟨_, _, h', _⟩ | ⟨n, e, _, h1, h2, h3, h4⟩ | ⟨h', _⟩ | ⟨h', _⟩ | ⟨h', _⟩
        · exact absurd h' h8
        · rw [(bytesToRsaPk_iff _ n e).mpr ⟨h2, h3, h1⟩]
          simp only [h8, if_false, hv]; exact h4
        all_goals (rw [h10] at h'; exact absurd h' (by decide))
    · rw [if_neg (by simp [h8, h10])]
      by_cases h13 : sig.alg = 13
      · rw [if_pos (Or.inl h13)]
        simp only [h13, if_true, hv]
        constructor
        · intro h; exact .ecdsaP256 rfl h
        · intro h
          rcases h with ⟨_, _, h', _⟩ | ⟨_, _, h', _⟩ | ⟨h', h⟩ | ⟨h', _⟩ | ⟨h', _⟩
          · exact absurd h' (by decide)
          · exact absurd h' (by decide)
          · exact h
          · exact absurd h' (by decide)
          · exact absurd h' (by decide)
      · by_cases h14 : sig.alg = 14
        · rw [if_pos (Or.inr h14)]
          simp only [h13, if_false, hv]
          constructor
          · intro h; exact .ecdsaP384 h14 h
          · intro h
            rcases h with ⟨_, _, h', _⟩ | ⟨_, _, h', _⟩ | ⟨h', h⟩ | ⟨h', h⟩ | ⟨h', _⟩
            · exact absurd h' h8
            · exact absurd h' h10
            · exact absurd h' h13
            · exact h
            · rw [h14] at h'; exact absurd h' (by decide)
        · rw [if_neg (by simp [h13, h14])]
          by_cases h15 : sig.alg = 15
          · rw [if_pos h15, hv]
            constructor
            · intro h; exact .ed25519 h15 h
            · intro h
              rcases h with ⟨_, _, h', _⟩ | ⟨_, _, h', _⟩ | ⟨h', h⟩ | ⟨h', h⟩ | ⟨h', h⟩
              · exact absurd h' h8
              · exact absurd h' h10
              · exact absurd h' h13
              · exact absurd h' h14
              · exact h
          · rw [if_neg h15]
            simp only [reduceCtorEq, false_iff]
            intro h
            rcases h with ⟨_, _, h', _⟩ | ⟨_, _, h', _⟩ | ⟨h', h⟩ | ⟨h', h⟩ | ⟨h', h⟩
            · exact absurd h' h8
            · exact absurd h' h10
            · exact absurd h' h13
            · exact absurd h' h14
            · exact absurd h' h15

theorem checkSig_no_panic (p : Platform) (sig : RRSig) (k : DnsKey) (msg : Bytes) : checkSig p sig k msg ≠ .panic := by
  have hv : ∀ b : Bool, (if b then .ok () else .err .invalid : Res VErr Unit) ≠ .panic := by
    intro b; cases b <;> simp
  unfold checkSig
  simp only []
  split
  · split
    · simp
    · exact hv _
  · split
    · exact hv _
    · split
      · exact hv _
      · simp

theorem checkSig_unsupported_iff (p : Platform) (sig : RRSig) (k : DnsKey) (msg : Bytes) :
    checkSig p sig k msg = .err .unsupported ↔ ¬ Supported sig.alg := by
  have hv : ∀ b : Bool, (if b then .ok () else .err .invalid : Res VErr Unit) ≠ .err .unsupported := by
    intro b; cases b <;> simp
  unfold checkSig Supported
  simp only []
  split
  · rename_i h
    constructor
    · intro h1
      split at h1
      · simp at h1
      · exact absurd h1 (hv _)
    · intro h1; exact absurd (h.elim Or.inl (fun h => Or.inr (Or.inl h))) h1
  · rename_i h1
    split
    · rename_i h
      constructor
      · intro h1; exact absurd h1 (hv _)
      · intro h1
        exact absurd (h.elim (fun h => Or.inr (Or.inr (Or.inl h))) (fun h => Or.inr (Or.inr (Or.inr (Or.inl h))))) h1
    · rename_i h2
      split
      · rename_i h
        constructor
        · intro h1; exact absurd h1 (hv _)
        · intro h1; exact absurd (Or.inr (Or.inr (Or.inr (Or.inr h)))) h1
      · rename_i h3
        simp only [true_iff]
        rintro (h | h | h | h | h)
        · exact h1 (Or.inl h)
        · exact h1 (Or.inr h)
        · exact h2 (Or.inl h)
        · exact h2 (Or.inr h)
        · exact h3 h

theorem verifyKeysLoop_cases (p : Platform) (sig : RRSig) (records : List RR) : ∀ keys : List DnsKey,
    (verifyKeysLoop p sig records keys = .err .invalid ∧ ∀ k ∈ keys, ¬ Eligible sig k) ∨
    ∃ k, FirstEligible sig keys k ∧ verifyKeysLoop p sig records keys =
      (match signedData sig records with | none => .err .invalid | some msg => checkSig p sig k msg)
  | [] => Or.inl ⟨rfl, by simp⟩
  | k :: ks => by
    rw [verifyKeysLoop]
    by_cases hk : keyEligible sig k = true
    · rw [if_pos hk]
      exact Or.inr ⟨k, ⟨[], ks, rfl, (keyEligible_iff sig k).mp hk, by simp⟩, rfl⟩
    · rw [if_neg hk]
      have hk' : ¬ Eligible sig k := fun h => hk ((keyEligible_iff sig k).mpr h)
      rcases verifyKeysLoop_cases p sig records ks with ⟨h1, h2⟩ | ⟨k', ⟨pre, post, h1, h2, h3⟩, h4⟩
      · refine Or.inl ⟨h1, ?_⟩
        intro x hx
        rcases List.mem_cons.mp hx with rfl | hx
        · exact hk'
        · exact h2 x hx
      · refine Or.inr ⟨k', ⟨k :: pre, post, by rw [h1]; rfl, h2, ?_⟩, h4⟩
        intro x hx
        rcases List.mem_cons.mp hx with rfl | hx
        · exact hk'
        · exact h3 x hx

theorem Spec.FirstEligible.unique {sig : RRSig} {keys : List DnsKey} {k k' : DnsKey} (h : FirstEligible sig keys k)
    (h' : FirstEligible sig keys k') : k = k' := by
  obtain ⟨pre, post, h1, h2, h3⟩ := h
  obtain ⟨pre', post', g1, g2, g3⟩ := h'
  rw [h1] at g1
  rcases List.append_eq_append_iff.mp g1 with ⟨as, e1, e2⟩ | ⟨as, e1, e2⟩
  · cases as with
    | nil => simpa using (List.cons.inj e2).1
    | cons a as =>
      rw [List.cons_append, List.cons.injEq] at e2
      exact absurd h2 (g3 k (by rw [e1, ← e2.1]; simp))
  · cases as with
    | nil => simpa using (List.cons.inj e2).1.symm
    | cons a as =>
      rw [List.cons_append, List.cons.injEq] at e2
      exact absurd g2 (h3 k' (by rw [e1, ← e2.1]; simp))

theorem any_ty_iff (sig : RRSig) (records : List RR) :
    records.any (fun r => sig.ty != r.ty) = false ↔ ∀ r ∈ records, r.ty = sig.ty := by
  rw [List.any_eq_false]
  constructor
  · intro h r hr; have := h r hr; simp at this; exact this.symm
  · intro h r hr; simp [h r hr]

/-- The model's version of a good signature, without assumptions on the names. -/
def GoodSigM (p : Platform) (sig : RRSig) (keys : List DnsKey) (records : List RR) : Prop :=
  (∀ r ∈ records, r.ty = sig.ty) ∧
  ∃ k msg, FirstEligible sig keys k ∧ signedData sig records = some msg ∧ CryptoOk p sig.alg k.pubkey msg sig.signature

theorem verifyRrsig_ok_iff (p : Platform) (sig : RRSig) (keys : List DnsKey) (records : List RR) :
    verifyRrsig p sig keys records = .ok () ↔ GoodSigM p sig keys records := by
  unfold verifyRrsig GoodSigM
  by_cases ha : records.any (fun r => sig.ty != r.ty) = true
  · rw [if_pos ha]
    simp only [reduceCtorEq, false_iff]
    rintro ⟨h, _⟩
    rw [← any_ty_iff] at h
    rw [h] at ha; simp at ha
  · rw [if_neg ha]
    have ht := (any_ty_iff sig records).mp (by simpa using ha)
    rcases verifyKeysLoop_cases p sig records keys with ⟨h1, h2⟩ | ⟨k, h1, h2⟩
    · rw [h1]
      simp only [reduceCtorEq, false_iff]
      rintro ⟨_, k, _, ⟨pre, post, rfl, h3, _⟩, _⟩
      exact h2 k (by simp) h3
    · rw [h2]
      cases hd : signedData sig records with
      | none =>
        simp
      | some msg =>
        simp only [checkSig_ok_iff]
        constructor
        · intro h; exact ⟨ht, k, msg, h1, rfl, h⟩
        · rintro ⟨_, k', msg', g1, g2, g3⟩
          obtain rfl := g1.unique h1
          simp only [Option.some.injEq] at g2
          subst g2
          exact g3

theorem verifyRrsig_no_panic (p : Platform) (sig : RRSig) (keys : List DnsKey) (records : List RR) :
    verifyRrsig p sig keys records ≠ .panic := by
  unfold verifyRrsig
  split
  · simp
  · rcases verifyKeysLoop_cases p sig records keys with ⟨h1, _⟩ | ⟨k, _, h2⟩
    · rw [h1]; simp
    · rw [h2]
      split
      · simp
      · exact checkSig_no_panic _ _ _ _

theorem verifyRrsig_unsupported_iff (p : Platform) (sig : RRSig) (keys : List DnsKey) (records : List RR) :
    verifyRrsig p sig keys records = .err .unsupported ↔
      (∀ r ∈ records, r.ty = sig.ty) ∧ (∃ k ∈ keys, Eligible sig k) ∧ (∃ msg, signedData sig records = some msg) ∧
      ¬ Supported sig.alg := by
  unfold verifyRrsig
  by_cases ha : records.any (fun r => sig.ty != r.ty) = true
  · rw [if_pos ha]
    simp only [Res.err.injEq, reduceCtorEq, false_iff]
    rintro ⟨h, _⟩
    rw [← any_ty_iff] at h
    rw [h] at ha; simp at ha
  · rw [if_neg ha]
    have ht := (any_ty_iff sig records).mp (by simpa using ha)
    rcases verifyKeysLoop_cases p sig records keys with ⟨h1, h2⟩ | ⟨k, h1, h2⟩
    · rw [h1]
      simp only [Res.err.injEq, reduceCtorEq, false_iff]
      rintro ⟨_, ⟨k, h3, h4⟩, _⟩
      exact h2 k h3 h4
    · rw [h2]
      have hex : ∃ k ∈ keys, Eligible sig k := by
        obtain ⟨pre, post, rfl, h3, _⟩ := h1
        exact ⟨k, by simp, h3⟩
      cases hd : signedData sig records with
      | none => simp
      | some msg =>
        simp only [checkSig_unsupported_iff]
        constructor
        · intro h; exact ⟨ht, hex, ⟨msg, rfl⟩, h⟩
        · rintro ⟨_, _, _, h⟩; exact h

/-! ### The signed bytes determine the RRset -/

theorem signedRecords_exact {sig : RRSig} : ∀ {rs : List RR},
    (∀ r ∈ rs, r.ty = nsecType ∨ r.name.labels = sig.labels) →
    signedRecords sig rs = some (rs.map (fun r => writeRR r sig.origTtl)).flatten
  | [], _ => rfl
  | r :: rs, h => by
    have ih := signedRecords_exact (sig := sig) (rs := rs) (fun x hx => h x (by simp [hx]))
    have ho : signedOwner sig r = some (writeName r.name.bytes) := by
      unfold signedOwner
      simp only []
      rw [if_neg]
      rintro ⟨h1, h2⟩
      rcases h r (by simp) with h3 | h3
      · exact h1 h3
      · exact h2 (by rw [h3])
    rw [signedRecords, ho]
    simp only [ih, Option.map_some, List.map_cons, List.flatten_cons, writeRR]

theorem parse_writes (rs : List RR) (ttl : UInt32) (h : ∀ r ∈ rs, Encodable r) :
    parseRRStream false (rs.map (fun r => writeRR r ttl)).flatten = .ok rs := by
  induction rs with
  | nil => rfl
  | cons r rs ih =>
    have h1 := parseRR_write false r (h r (by simp)) ttl ((rs.map (fun r => writeRR r ttl)).flatten)
    rw [List.map_cons, List.flatten_cons, parseRRStream_step h1, ih (fun q hq => h q (by simp [hq]))]
    rfl

theorem signedRRs_exact {sig : RRSig} {rs : List RR} {body : Bytes} (h : SignedRRs sig rs body)
    (ht : ∀ r ∈ rs, Encodable r) (hx : ∀ r ∈ rs, ∀ ls, HasLabels r.name ls → ls.length = sig.labels.toNat) :
    body = (rs.map (fun r => writeRR r sig.origTtl)).flatten := by
  induction h with
  | nil => rfl
  | cons r rs ls owner rest hl ho _ ih =>
    have hw := writeData_eq r (fun t e => (ht r (by simp)).txtNonempty t e)
    have hlen := hx r (by simp) ls hl
    have how : owner = wire ls := by
      cases ho with
      | exact => rfl
      | wildcard pre suf _ e1 e2 e3 =>
        rw [e1, List.length_append] at hlen
        have := List.length_pos_iff.mpr e2
        omega
    rw [ih (fun x hx' => ht x (by simp [hx'])) (fun x hx' => hx x (by simp [hx'])), how]
    simp [writeRR, hl.writeName, hw]

theorem signedMessage_injective {s1 s2 : RRSig} {r1 r2 : List RR} {msg : Bytes}
    (he1 : ∀ r ∈ r1, Encodable r) (he2 : ∀ r ∈ r2, Encodable r)
    (hx1 : ∀ r ∈ r1, ∀ ls, HasLabels r.name ls → ls.length = s1.labels.toNat)
    (hx2 : ∀ r ∈ r2, ∀ ls, HasLabels r.name ls → ls.length = s2.labels.toNat)
    (h1 : SignedMessage s1 r1 msg) (h2 : SignedMessage s2 r2 msg) :
    r1.Perm r2 ∧ s1.ty = s2.ty ∧ s1.alg = s2.alg ∧ s1.labels = s2.labels ∧
      s1.origTtl = s2.origTtl ∧ s1.expiration = s2.expiration ∧ s1.inception = s2.inception ∧ s1.keyTag = s2.keyTag ∧
      s1.keyName = s2.keyName := by
  obtain ⟨l1, t1, b1, hl1, p1, _, g1, e1⟩ := h1
  obtain ⟨l2, t2, b2, hl2, p2, _, g2, e2⟩ := h2
  have q1 := signedRRs_exact g1 (fun r hr => he1 r (p1.mem_iff.mp hr)) (fun r hr => hx1 r (p1.mem_iff.mp hr))
  have q2 := signedRRs_exact g2 (fun r hr => he2 r (p2.mem_iff.mp hr)) (fun r hr => hx2 r (p2.mem_iff.mp hr))
  have h : be16 s1.ty ++ ([s1.alg, s1.labels] ++ (be32 s1.origTtl ++ (be32 s1.expiration ++ (be32 s1.inception ++
      (be16 s1.keyTag ++ (wire l1 ++ b1)))))) =
      be16 s2.ty ++ ([s2.alg, s2.labels] ++ (be32 s2.origTtl ++ (be32 s2.expiration ++ (be32 s2.inception ++
      (be16 s2.keyTag ++ (wire l2 ++ b2)))))) := by
    simpa using e1.symm.trans e2
  obtain ⟨a1, h⟩ := List.append_inj h (by simp)
  obtain ⟨a2, h⟩ := List.append_inj h (by simp)
  obtain ⟨a4, h⟩ := List.append_inj h (by simp)
  obtain ⟨a5, h⟩ := List.append_inj h (by simp)
  obtain ⟨a6, h⟩ := List.append_inj h (by simp)
  obtain ⟨a7, h⟩ := List.append_inj h (by simp)
  have c1 := readName_wire [] hl1 b1
  have c2 := readName_wire [] hl2 b2
  rw [h, c2] at c1
  simp only [Res.ok.injEq, Prod.mk.injEq] at c1
  obtain ⟨c1, c2⟩ := c1
  have d1 := parse_writes t1 s1.origTtl (fun r hr => he1 r (p1.mem_iff.mp hr))
  have d2 := parse_writes t2 s2.origTtl (fun r hr => he2 r (p2.mem_iff.mp hr))
  rw [← q1] at d1
  rw [← q2, c2, d1] at d2
  simp only [Res.ok.injEq] at d2
  simp only [List.cons.injEq, and_true] at a2
  exact ⟨p1.symm.trans (d2 ▸ p2), be16_inj a1, a2.1, a2.2, be32_inj a4, be32_inj a5, be32_inj a6, be16_inj a7, c1.symm⟩

end Dnssec
