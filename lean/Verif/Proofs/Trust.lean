import Verif.Spec.Trust
import Verif.Proofs.Termination
import Verif.Proofs.Resolve
import Verif.Proofs.Example

/-! # Lemmas for C62-C66 -/

namespace Dnssec

open Spec

variable {dbg : Bool} {p : Platform} {inp : List RR}

/-! ### The signed bytes, for any names and any order -/

theorem splitOnceDot_eq {s a b : Bytes} (h : splitOnceDot s = some (a, b)) : s = a ++ 46 :: b := by
  induction s generalizing a with
  | nil => simp [splitOnceDot] at h
  | cons c s ih =>
    rw [splitOnceDot] at h
    split at h
    · rename_i hc
      simp only [Option.some.injEq, Prod.mk.injEq] at h
      obtain ⟨rfl, rfl⟩ := h
      rw [hc]; rfl
    · cases hs : splitOnceDot s with
      | none => rw [hs] at h; simp at h
      | some q =>
        rw [hs] at h
        simp only [Option.some.injEq, Prod.mk.injEq] at h
        obtain ⟨rfl, h2⟩ := h
        obtain ⟨q1, q2⟩ := q
        simp only at h2; subst h2
        rw [ih hs]; rfl

theorem splitnDot_last : ∀ (k : Nat) (s b : Bytes), (splitnDot k s).getLast? = some b → b = s ∨ ∃ pre, s = pre ++ 46 :: b
  | 0, s, b, h => by simp [splitnDot] at h
  | 1, s, b, h => by simp [splitnDot] at h; exact .inl h.symm
  | k + 2, s, b, h => by
    rw [splitnDot] at h
    cases hs : splitOnceDot s with
    | none => rw [hs] at h; simp at h; exact .inl h.symm
    | some q =>
      obtain ⟨x, y⟩ := q
      rw [hs] at h
      have e := splitOnceDot_eq hs
      simp only at h
      cases hl : splitnDot (k + 1) y with
      | nil =>
        exfalso
        cases k with
        | zero => simp [splitnDot] at hl
        | succ k => rw [splitnDot] at hl; split at hl <;> simp at hl
      | cons u us =>
        rw [hl, List.getLast?_cons_cons, ← hl] at h
        rcases splitnDot_last (k + 1) y b h with rfl | ⟨pre, rfl⟩
        · exact .inr ⟨x, e⟩
        · exact .inr ⟨x ++ 46 :: pre, by rw [e]; simp⟩

theorem splitOnceDot_none {s : Bytes} (h : splitOnceDot s = none) : (46 : UInt8) ∉ s := by
  induction s with
  | nil => simp
  | cons c s ih =>
    rw [splitOnceDot] at h
    split at h
    · simp at h
    · rename_i hc
      cases hs : splitOnceDot s with
      | some q => rw [hs] at h; simp at h
      | none =>
        simp only [List.mem_cons, not_or]
        exact ⟨fun e => hc e.symm, ih hs⟩

theorem trailing_suffix {n : Name} {k : UInt8} {b : Bytes} (h : n.trailingNLabels k = some b) (hk : k.toNat < n.labels.toNat) :
    (∃ pre, n.bytes = pre ++ 46 :: b) ∨ (b = [46] ∧ k = 0) := by
  unfold Name.trailingNLabels at h
  simp only at h
  rw [if_neg (by rw [gt_iff_lt, UInt8.lt_iff_toNat_lt]; omega), if_neg (by intro e; rw [e] at hk; omega)] at h
  split at h
  · rename_i h0
    simp only [Option.some.injEq] at h
    exact .inr ⟨h.symm, h0⟩
  · obtain ⟨j, hj⟩ : ∃ j, n.labels.toNat - k.toNat + 1 = j + 2 := ⟨n.labels.toNat - k.toNat - 1, by omega⟩
    rw [hj] at h
    have hd : (46 : UInt8) ∈ n.bytes := by
      apply Classical.byContradiction
      intro hd
      have : n.labels = 0 := by
        unfold Name.labels
        split
        · rfl
        · rw [List.filter_eq_nil_iff.mpr (by intro c hc e; simp at e; rw [e] at hc; exact hd hc)]; rfl
      rw [this] at hk; simp at hk
    left
    rw [splitnDot] at h
    cases hs : splitOnceDot n.bytes with
    | none => exact absurd hd (splitOnceDot_none hs)
    | some q =>
      obtain ⟨x, y⟩ := q
      rw [hs] at h
      have e := splitOnceDot_eq hs
      simp only at h
      cases hl : splitnDot (j + 1) y with
      | nil =>
        exfalso
        cases j with
        | zero => simp [splitnDot] at hl
        | succ j => rw [splitnDot] at hl; split at hl <;> simp at hl
      | cons u us =>
        rw [hl, List.getLast?_cons_cons, ← hl] at h
        rcases splitnDot_last (j + 1) y b h with rfl | ⟨pre, rfl⟩
        · exact ⟨x, e⟩
        · exact ⟨x ++ 46 :: pre, by rw [e]; simp⟩

theorem signedOwner_bytes {sig : RRSig} {r : RR} {o : Bytes} (h : signedOwner sig r = some o) : OwnerBytes sig r o := by
  unfold signedOwner at h
  simp only at h
  split at h
  · rename_i h1
    split at h
    · simp at h
    · rename_i h2
      rw [Option.map_eq_some_iff] at h
      obtain ⟨b, hb, rfl⟩ := h
      have hlt : sig.labels.toNat < r.name.labels.toNat := by omega
      rw [writeName_eq_nameWire]
      rcases trailing_suffix hb hlt with ⟨pre, e⟩ | e
      · exact .wildcard pre b hlt h1.1 (.inl e)
      · exact .wildcard [] b hlt h1.1 (.inr e)
  · rename_i h1
    simp only [Option.some.injEq] at h
    subst h
    rw [writeName_eq_nameWire]
    refine .itself ?_
    by_cases ht : r.ty = nsecType
    · exact .inr ht
    · left
      apply Classical.byContradiction
      intro hne
      exact h1 ⟨ht, fun e => hne (UInt8.toNat_inj.mp e.symm)⟩

theorem signedRecords_bytes {sig : RRSig} : ∀ {rs : List RR} {b : Bytes}, signedRecords sig rs = some b →
    (∀ t, RR.txt t ∈ rs → t.data ≠ []) → RecordsBytes sig rs b
  | [], b, h, _ => by
    simp only [signedRecords, Option.some.injEq] at h; subst h; exact .nil
  | r :: rs, b, h, ht => by
    rw [signedRecords] at h
    cases ho : signedOwner sig r with
    | none => rw [ho] at h; simp at h
    | some o =>
      rw [ho] at h
      simp only [Option.map_eq_some_iff] at h
      obtain ⟨rest, h1, rfl⟩ := h
      rw [writeData_eq r (by rintro t rfl; exact ht t (by simp)), ← List.append_assoc]
      exact .cons r rs o rest (signedOwner_bytes ho) (signedRecords_bytes h1 (fun t h => ht t (by simp [h])))

theorem sigPrefix_eq (sig : RRSig) : sigPrefix sig = signedHeader sig := by
  unfold sigPrefix signedHeader
  rw [writeName_eq_nameWire]
  simp

theorem signedData_bytes {sig : RRSig} {records : List RR} {msg : Bytes} (h : signedData sig records = some msg)
    (ht : ∀ t, RR.txt t ∈ records → t.data ≠ []) :
    ∃ order body, order.Perm records ∧ RecordsBytes sig order body ∧ msg = signedHeader sig ++ body := by
  unfold signedData at h
  rw [Option.map_eq_some_iff] at h
  obtain ⟨body, h1, rfl⟩ := h
  refine ⟨_, body, sortRRs_perm records, signedRecords_bytes h1 ?_, by rw [sigPrefix_eq]⟩
  intro t hm
  exact ht t ((sortRRs_perm records).mem_iff.mp hm)

/-! ### One question to the signature library per signature -/

/-- The question asked for a key and message (any one if none is asked). -/
def questionOf (sig : RRSig) (k : DnsKey) (msg : Bytes) : Question :=
  if sig.alg = 8 ∨ sig.alg = 10 then
    match bytesToRsaPk k.pubkey with
    | none => .ed25519 [] [] []
    | some (n, e) => if sig.alg = 8 then .rsaSha256 n e msg sig.signature else .rsaSha512 n e msg sig.signature
  else if sig.alg = 13 then .ecdsaP256 (4 :: k.pubkey) msg sig.signature
  else if sig.alg = 14 then .ecdsaP384 (4 :: k.pubkey) msg sig.signature
  else .ed25519 k.pubkey msg sig.signature

theorem checkSig_question (p p' : Platform) (sig : RRSig) (k : DnsKey) (msg : Bytes)
    (h : (questionOf sig k msg).answer p = (questionOf sig k msg).answer p') : checkSig p sig k msg = checkSig p' sig k msg := by
  unfold checkSig
  unfold questionOf at h
  simp only
  split
  · rename_i h1
    rw [if_pos h1] at h
    cases hr : bytesToRsaPk k.pubkey with
    | none => rfl
    | some q =>
      obtain ⟨n, e⟩ := q
      rw [hr] at h
      simp only at h ⊢
      split
      · rename_i h8; rw [if_pos h8] at h; simp only [Question.answer] at h; rw [h]
      · rename_i h8; rw [if_neg h8] at h; simp only [Question.answer] at h; rw [h]
  · rename_i h1
    rw [if_neg h1] at h
    split
    · rename_i h2
      split
      · rename_i h13; rw [if_pos h13] at h; simp only [Question.answer] at h; rw [h]
      · rename_i h13
        rw [if_neg h13, if_pos (h2.resolve_left h13)] at h
        simp only [Question.answer] at h; rw [h]
    · rename_i h2
      rw [if_neg (fun e => h2 (.inl e)), if_neg (fun e => h2 (.inr e))] at h
      simp only [Question.answer] at h
      split
      · rw [h]
      · rfl

theorem verifyRrsig_question (sig : RRSig) (keys : List DnsKey) (records : List RR) :
    ∃ q : Question, ∀ p p' : Platform, q.answer p = q.answer p' → verifyRrsig p sig keys records = verifyRrsig p' sig keys records := by
  have key : ∃ q : Question, ∀ p p' : Platform, q.answer p = q.answer p' →
      verifyKeysLoop p sig records keys = verifyKeysLoop p' sig records keys := by
    induction keys with
    | nil => exact ⟨.ed25519 [] [] [], fun _ _ _ => rfl⟩
    | cons k ks ih =>
      by_cases he : keyEligible sig k = true
      · cases hd : signedData sig records with
        | none => exact ⟨.ed25519 [] [] [], fun p p' _ => by rw [verifyKeysLoop, verifyKeysLoop, if_pos he, if_pos he, hd]⟩
        | some msg =>
          refine ⟨questionOf sig k msg, fun p p' h => ?_⟩
          rw [verifyKeysLoop, verifyKeysLoop, if_pos he, if_pos he, hd]
          exact checkSig_question p p' sig k msg h
      · obtain ⟨q, hq⟩ := ih
        refine ⟨q, fun p p' h => ?_⟩
        rw [verifyKeysLoop, verifyKeysLoop, if_neg he, if_neg he]
        exact hq p p' h
  obtain ⟨q, hq⟩ := key
  refine ⟨q, fun p p' h => ?_⟩
  unfold verifyRrsig
  rw [hq p p' h]

theorem validatedKeys_congr {p p' : Platform} (h1 : p.sha1 = p'.sha1) (h2 : p.sha256 = p'.sha256) (dses : List DS) (keys : List DnsKey) :
    validatedKeys p dses keys = validatedKeys p' dses keys := by
  unfold validatedKeys dsMatches
  rw [h1, h2]

/-- Two platforms treat the signatures of the input alike, in the roles they can have there. -/
structure Alike (p p' : Platform) (inp : List RR) : Prop where
  keys : ∀ s, RR.rrsig s ∈ inp → s.ty = 48 →
    verifyRrsig p s (validatedKeys p (anchors inp s.name) (keysAt inp s.name)) ((keysAt inp s.name).map .dnskey) =
    verifyRrsig p' s (validatedKeys p (anchors inp s.name) (keysAt inp s.name)) ((keysAt inp s.name).map .dnskey)
  others : ∀ s, RR.rrsig s ∈ inp → s.ty ≠ 48 →
    verifyRrsig p s (keysAt inp s.keyName) (rrset inp s.name s.ty) = verifyRrsig p' s (keysAt inp s.keyName) (rrset inp s.name s.ty)

theorem dnskeySigLoop_congr {p p' : Platform} {validated records : List DnsKey} : ∀ {sigs : List RRSig} {b : Bool},
    (∀ s ∈ sigs, verifyRrsig p s validated (records.map .dnskey) = verifyRrsig p' s validated (records.map .dnskey)) →
    dnskeySigLoop p validated records sigs b = dnskeySigLoop p' validated records sigs b
  | [], b, _ => rfl
  | s :: sigs, b, h => by
    rw [dnskeySigLoop, dnskeySigLoop, h s (by simp), dnskeySigLoop_congr (fun s hs => h s (by simp [hs]))]

theorem sigLoop_congr {p p' : Platform} {z : Name} : ∀ {sigs : List RRSig} {st : VState},
    (∀ s ∈ sigs, verifyRrsig p s (keysAt inp z) (rrset inp s.name s.ty) = verifyRrsig p' s (keysAt inp z) (rrset inp s.name s.ty)) →
    sigLoop dbg p inp z.bytes sigs st = sigLoop dbg p' inp z.bytes sigs st
  | [], st, _ => rfl
  | s :: sigs, st, h => by
    have h1 : ∀ st, sigLoop dbg p inp z.bytes sigs st = sigLoop dbg p' inp z.bytes sigs st :=
      fun st => sigLoop_congr (fun s hs => h s (by simp [hs]))
    rw [sigLoop, sigLoop, zoneKeys_eq, coveredRecords_eq, h s (by simp), h1 st, show sigLoop dbg p inp z.bytes sigs =
      sigLoop dbg p' inp z.bytes sigs from funext h1]

theorem doZone_congr {p p' : Platform} (ha : Alike p p' inp) (h1 : p.sha1 = p'.sha1) (h2 : p.sha256 = p'.sha256) {z : Name}
    {dses : List DS} {st : VState} (hd : z ≠ rootName → dses = dsAt inp z) :
    doZone dbg p inp z.bytes dses st = doZone dbg p' inp z.bytes dses st := by
  rw [doZone_eq _ _ _ _ _ _ hd, doZone_eq _ _ _ _ _ _ hd]
  have e1 : verifyDnskeys p (keySigs inp z) (anchors inp z) (keysAt inp z) = verifyDnskeys p' (keySigs inp z) (anchors inp z) (keysAt inp z) := by
    unfold verifyDnskeys
    rw [← validatedKeys_congr h1 h2, dnskeySigLoop_congr]
    intro s hs
    obtain ⟨a, rfl, c⟩ := mem_keySigs.mp hs
    exact ha.keys s a c
  have e2 : ∀ st, sigLoop dbg p inp z.bytes (sigsBy inp z) st = sigLoop dbg p' inp z.bytes (sigsBy inp z) st := by
    intro st
    apply sigLoop_congr
    intro s hs
    obtain ⟨a, rfl, c⟩ := mem_sigsBy.mp hs
    exact ha.others s a c
  rw [e1]
  simp only [e2]

theorem zoneLoop_congr {p p' : Platform} (ha : Alike p p' inp) (h1 : p.sha1 = p'.sha1) (h2 : p.sha256 = p'.sha256) :
    ∀ (fuel : Nat) (zone : Bytes) (st : VState), (∀ e ∈ st.pending, e.2 = dsAt inp e.1) →
    zoneLoop dbg p inp fuel zone st = zoneLoop dbg p' inp fuel zone st
  | 0, zone, st, _ => by rw [zoneLoop, zoneLoop]
  | fuel + 1, zone, st, hp => by
    rw [zoneLoop, zoneLoop]
    by_cases hc : zone = [dot] ∨ st.pending ≠ []
    · rw [if_pos hc, if_pos hc]
      cases hpe : st.pending with
      | nil =>
        have hz : zone = rootName.bytes := hc.resolve_right (by simp [hpe])
        simp only
        rw [hz, doZone_congr ha h1 h2 (by simp)]
        cases hd : doZone dbg p' inp rootName.bytes [] st with
        | err e => rfl
        | panic => rfl
        | ok st' =>
          simp only
          obtain ⟨_, new, i1, _, i3, _⟩ := doZone_pending (by simp) hd
          apply zoneLoop_congr ha h1 h2
          intro e he
          rw [i1, hpe, List.append_nil] at he
          obtain ⟨s, _, _, rfl, _⟩ := i3 e he
          rfl
      | cons e rest =>
        obtain ⟨z, ds⟩ := e
        have hds : ds = dsAt inp z := hp (z, ds) (by rw [hpe]; simp)
        simp only
        rw [doZone_congr ha h1 h2 (fun _ => hds)]
        cases hd : doZone dbg p' inp z.bytes ds { st with pending := rest } with
        | err e => rfl
        | panic => rfl
        | ok st' =>
          simp only
          obtain ⟨_, new, i1, _, i3, _⟩ := doZone_pending (fun _ => hds) hd
          apply zoneLoop_congr ha h1 h2
          intro e he
          rw [i1] at he
          rcases List.mem_append.mp he with he | he
          · obtain ⟨s, _, _, rfl, _⟩ := i3 e he
            rfl
          · exact hp e (by rw [hpe]; simp [show e ∈ rest from he])
    · rw [if_neg hc, if_neg hc]

theorem nsec3HashIter_congr {p p' : Platform} (h : p.sha1 = p'.sha1) (salt : Bytes) : ∀ (n : Nat) (b : Bytes),
    nsec3HashIter p salt n b = nsec3HashIter p' salt n b
  | 0, b => rfl
  | n + 1, b => by rw [nsec3HashIter, nsec3HashIter, h, nsec3HashIter_congr h]

theorem nsec3Params_congr {p p' : Platform} (h : p.sha1 = p'.sha1) (name : Bytes) : ∀ (l : List NSec3) (acc : List (UInt16 × Bytes × Bytes)),
    nsec3Params p name l acc = nsec3Params p' name l acc
  | [], acc => rfl
  | n :: ns, acc => by
    have e : nsec3Hash p name n.salt n.hashIterations = nsec3Hash p' name n.salt n.hashIterations := by
      unfold nsec3Hash; rw [nsec3HashIter_congr h, h]
    rw [nsec3Params, nsec3Params, e]
    simp only [nsec3Params_congr h name ns]

theorem proofLoop_congr {p p' : Platform} (h : p.sha1 = p'.sha1) (res : List RR) : ∀ (fuel : Nat) (needs : List Need),
    proofLoop p res fuel needs = proofLoop p' res fuel needs
  | 0, _ => rfl
  | _ + 1, [] => rfl
  | fuel + 1, need :: rest => by
    rw [proofLoop, proofLoop]
    simp only [nsec3Params_congr h, proofLoop_congr h res fuel]

theorem verifyRRStream_congr {p p' : Platform} (ha : Alike p p' inp) (h1 : p.sha1 = p'.sha1) (h2 : p.sha256 = p'.sha256)
    (h3 : p.sortNeeds = p'.sortNeeds) (fuel : Nat) : verifyRRStream dbg p fuel inp = verifyRRStream dbg p' fuel inp := by
  unfold verifyRRStream finishVerify
  rw [zoneLoop_congr ha h1 h2 fuel _ _ (by simp [VState.init]), h3]
  simp only [proofLoop_congr h1]

end Dnssec
