import Verif.Spec.Trace
import Verif.Proofs.Crypto

/-! # The operations listed determine the run -/

namespace Dnssec

open Spec

variable {dbg : Bool} {p p' : Platform} {inp : List RR}

theorem checkSigE_same (sig : RRSig) (k : DnsKey) (msg : Bytes) (h : ∀ op ∈ (checkSigE p sig k msg).ops, SameAnswer p p' op) :
    checkSigE p' sig k msg = checkSigE p sig k msg := by
  have hok := checkSig_ok_iff (p := p) (sig := sig) (k := k) (msg := msg)
  have hok' := checkSig_ok_iff (p := p') (sig := sig) (k := k) (msg := msg)
  rw [← checkSigE_res] at hok hok'
  have hres : ∀ b b' : Bool, (((if b then .ok () else .err .invalid : Res VErr Unit) = .ok ()) ↔
      ((if b' then .ok () else .err .invalid : Res VErr Unit) = .ok ())) → b' = b := by
    intro b b'; cases b <;> cases b' <;> simp
  unfold checkSigE at h hok hok' ⊢
  simp only at h hok hok' ⊢
  by_cases h1 : sig.alg = 8 ∨ sig.alg = 10
  · rw [if_pos h1] at h hok hok' ⊢
    rw [if_pos h1]
    cases hr : bytesToRsaPk k.pubkey with
    | none => rfl
    | some v =>
      rw [hr] at h hok hok'
      have hs := h _ (List.mem_singleton.mpr rfl)
      simp only at hok hok' ⊢
      rw [hres _ _ (hok.trans (hs.trans hok'.symm))]
  · rw [if_neg h1] at h hok hok' ⊢
    rw [if_neg h1]
    by_cases h2 : sig.alg = 13 ∨ sig.alg = 14
    · rw [if_pos h2] at h hok hok' ⊢
      rw [if_pos h2]
      have hs := h _ (List.mem_singleton.mpr rfl)
      rw [hres _ _ (hok.trans (hs.trans hok'.symm))]
    · rw [if_neg h2] at h hok hok' ⊢
      rw [if_neg h2]
      by_cases h3 : sig.alg = 15
      · rw [if_pos h3] at h hok hok' ⊢
        rw [if_pos h3]
        have hs := h _ (List.mem_singleton.mpr rfl)
        rw [hres _ _ (hok.trans (hs.trans hok'.symm))]
      · rw [if_neg h3, if_neg h3]

theorem verifyKeysLoopE_same (sig : RRSig) (records : List RR) : ∀ keys,
    (∀ op ∈ (verifyKeysLoopE p sig records keys).ops, SameAnswer p p' op) →
    verifyKeysLoopE p' sig records keys = verifyKeysLoopE p sig records keys
  | [], _ => rfl
  | k :: ks, h => by
    rw [verifyKeysLoopE] at h ⊢
    rw [verifyKeysLoopE]
    by_cases he : keyEligible sig k = true
    · rw [if_pos he] at h ⊢
      rw [if_pos he]
      cases hd : signedData sig records with
      | none => rfl
      | some msg =>
        rw [hd] at h
        exact checkSigE_same sig k msg h
    · rw [if_neg he] at h ⊢
      rw [if_neg he]
      exact verifyKeysLoopE_same sig records ks h

theorem verifyRrsigE_same (sig : RRSig) (keys : List DnsKey) (records : List RR)
    (h : ∀ op ∈ (verifyRrsigE p sig keys records).ops, SameAnswer p p' op) :
    verifyRrsigE p' sig keys records = verifyRrsigE p sig keys records := by
  rw [verifyRrsigE] at h ⊢
  rw [verifyRrsigE]
  by_cases ha : (records.any fun r => sig.ty != r.ty) = true
  · rw [if_pos ha, if_pos ha]
  · rw [if_neg ha] at h ⊢
    rw [if_neg ha]
    exact verifyKeysLoopE_same sig records keys h

theorem dsLoopE_same (all : List DS) (k : DnsKey) : ∀ dses, (∀ op ∈ (dsLoopE p all k dses).ops, SameAnswer p p' op) →
    dsLoopE p' all k dses = dsLoopE p all k dses
  | [], _ => rfl
  | ds :: dses, h => by
    have ih := dsLoopE_same all k dses
    rw [dsLoopE] at h ⊢
    rw [dsLoopE]
    simp only at h ⊢
    by_cases he : (ds.alg == k.alg && k.computeKeyTag == ds.keyTag) = true
    · rw [if_pos he] at h ⊢
      rw [if_pos he]
      have hcmp : ∀ (x x' : Bytes), (SameAnswer p p' (.digest k ds) → x = x') →
          (∀ op ∈ (if (x == ds.digest) = true then (⟨true, [.digest k ds]⟩ : Traced Bool)
            else ⟨(dsLoopE p all k dses).res, .digest k ds :: (dsLoopE p all k dses).ops⟩).ops, SameAnswer p p' op) →
          (if (x' == ds.digest) = true then (⟨true, [.digest k ds]⟩ : Traced Bool)
            else ⟨(dsLoopE p' all k dses).res, .digest k ds :: (dsLoopE p' all k dses).ops⟩) =
          (if (x == ds.digest) = true then (⟨true, [.digest k ds]⟩ : Traced Bool)
            else ⟨(dsLoopE p all k dses).res, .digest k ds :: (dsLoopE p all k dses).ops⟩) := by
        intro x x' hx hops
        by_cases hd : (x == ds.digest) = true
        · rw [if_pos hd] at hops ⊢
          have := hx (hops _ (List.mem_singleton.mpr rfl))
          subst this
          rw [if_pos hd]
        · rw [if_neg hd] at hops ⊢
          have := hx (hops _ (List.mem_cons_self ..))
          subst this
          rw [if_neg hd, ih (fun op ho => hops op (List.mem_cons_of_mem _ ho))]
      by_cases h1 : ds.digestType = 1 ∧ trustSha1 all = true
      · rw [if_pos h1] at h ⊢
        rw [if_pos h1]
        exact hcmp _ _ (fun hs => by rw [dsHashInput_eq]; exact hs.1 h1.1) h
      · rw [if_neg h1] at h ⊢
        rw [if_neg h1]
        by_cases h2 : ds.digestType = 2
        · rw [if_pos h2] at h ⊢
          rw [if_pos h2]
          exact hcmp _ _ (fun hs => by rw [dsHashInput_eq]; exact hs.2 h2) h
        · rw [if_neg h2] at h ⊢
          rw [if_neg h2]
          exact ih h
    · rw [if_neg he] at h ⊢
      rw [if_neg he]
      exact ih h

theorem validatedKeysE_same (dses : List DS) : ∀ keys, (∀ op ∈ (validatedKeysE p dses keys).ops, SameAnswer p p' op) →
    validatedKeysE p' dses keys = validatedKeysE p dses keys
  | [], _ => rfl
  | k :: ks, h => by
    rw [validatedKeysE] at h
    rw [validatedKeysE, validatedKeysE, dsLoopE_same dses k dses (fun op ho => h op (List.mem_append_left _ ho)),
      validatedKeysE_same dses ks (fun op ho => h op (List.mem_append_right _ ho))]

theorem dnskeySigLoopE_same (validated records : List DnsKey) : ∀ sigs b,
    (∀ op ∈ (dnskeySigLoopE p validated records sigs b).ops, SameAnswer p p' op) →
    dnskeySigLoopE p' validated records sigs b = dnskeySigLoopE p validated records sigs b
  | [], _, _ => rfl
  | sig :: sigs, b, h => by
    rw [dnskeySigLoopE] at h ⊢
    rw [dnskeySigLoopE]
    simp only at h ⊢
    have hv : verifyRrsigE p' sig validated (records.map RR.dnskey) = verifyRrsigE p sig validated (records.map RR.dnskey) := by
      refine verifyRrsigE_same _ _ _ fun op ho => h op ?_
      split
      · exact ho
      · exact List.mem_append_left _ ho
      · exact ho
      · exact ho
    rw [hv]
    split
    · rfl
    · rename_i hr
      rw [hr] at h
      rw [dnskeySigLoopE_same validated records sigs true (fun op ho => h op (List.mem_append_right _ ho))]
    · rfl
    · rfl

theorem verifyDnskeysE_same (sigs : List RRSig) (dses : List DS) (records : List DnsKey)
    (h : ∀ op ∈ (verifyDnskeysE p sigs dses records).ops, SameAnswer p p' op) :
    verifyDnskeysE p' sigs dses records = verifyDnskeysE p sigs dses records := by
  rw [verifyDnskeysE] at h ⊢
  rw [verifyDnskeysE]
  split
  · rfl
  · rename_i h1
    rw [if_neg h1] at h
    split
    · rfl
    · rename_i h2
      rw [if_neg h2] at h
      simp only at h ⊢
      rw [validatedKeysE_same dses records (fun op ho => h op (List.mem_append_left _ ho)),
        dnskeySigLoopE_same _ records sigs false (fun op ho => h op (List.mem_append_right _ ho))]

theorem sigLoopE_same (zone : Bytes) : ∀ sigs st, (∀ op ∈ (sigLoopE dbg p inp zone sigs st).ops, SameAnswer p p' op) →
    sigLoopE dbg p' inp zone sigs st = sigLoopE dbg p inp zone sigs st
  | [], _, _ => rfl
  | sig :: sigs, st, h => by
    rw [sigLoopE] at h ⊢
    rw [sigLoopE]
    split
    · rfl
    · rename_i h1
      rw [if_neg h1] at h
      simp only at h ⊢
      have hv : verifyRrsigE p' sig (zoneKeys inp zone) (coveredRecords inp sig) =
          verifyRrsigE p sig (zoneKeys inp zone) (coveredRecords inp sig) := by
        refine verifyRrsigE_same _ _ _ fun op ho => h op ?_
        split
        · exact List.mem_append_left _ ho
        · exact ho
        · exact ho
        · split
          · exact List.mem_append_left _ ho
          · exact ho
          · exact ho
      rw [hv]
      split
      · rename_i hr
        rw [hr] at h
        rw [sigLoopE_same zone sigs st (fun op ho => h op (List.mem_append_right _ ho))]
      · rfl
      · rfl
      · rename_i hr
        rw [hr] at h
        simp only at h
        split
        · rename_i ha
          rw [ha] at h
          rw [sigLoopE_same zone sigs _ (fun op ho => h op (List.mem_append_right _ ho))]
        · rfl
        · rfl

theorem doZoneE_same (zone : Bytes) (dses : List DS) (st : VState)
    (h : ∀ op ∈ (doZoneE dbg p inp zone dses st).ops, SameAnswer p p' op) :
    doZoneE dbg p' inp zone dses st = doZoneE dbg p inp zone dses st := by
  rw [doZoneE] at h ⊢
  rw [doZoneE]
  simp only at h ⊢
  rw [verifyDnskeysE_same _ _ _ (fun op ho => h op (by
    split
    · exact List.mem_append_left _ ho
    · exact ho
    · exact ho))]
  split
  · rename_i hr
    rw [hr] at h
    rw [sigLoopE_same zone _ _ (fun op ho => h op (List.mem_append_right _ ho))]
  · rfl
  · rfl

theorem zoneLoopE_same : ∀ (fuel : Nat) (zone : Bytes) (st : VState),
    (∀ op ∈ (zoneLoopE dbg p inp fuel zone st).ops, SameAnswer p p' op) →
    zoneLoopE dbg p' inp fuel zone st = zoneLoopE dbg p inp fuel zone st
  | 0, zone, st, _ => by
    rw [zoneLoopE, zoneLoopE]
  | fuel + 1, zone, st, h => by
    rw [zoneLoopE] at h ⊢
    rw [zoneLoopE]
    split
    · rename_i h1
      rw [if_pos h1] at h
      simp only at h ⊢
      have key : ∀ (z : Bytes) (dses : List DS) (s : VState),
          (∀ op ∈ (match (doZoneE dbg p inp z dses s).res with
            | .ok st => (⟨(zoneLoopE dbg p inp fuel z st).res, (doZoneE dbg p inp z dses s).ops ++ (zoneLoopE dbg p inp fuel z st).ops⟩ :
                Traced (Option (Res VErr VState)))
            | .err e => ⟨some (.err e), (doZoneE dbg p inp z dses s).ops⟩
            | .panic => ⟨some .panic, (doZoneE dbg p inp z dses s).ops⟩).ops, SameAnswer p p' op) →
          (match (doZoneE dbg p' inp z dses s).res with
            | .ok st => (⟨(zoneLoopE dbg p' inp fuel z st).res, (doZoneE dbg p' inp z dses s).ops ++ (zoneLoopE dbg p' inp fuel z st).ops⟩ :
                Traced (Option (Res VErr VState)))
            | .err e => ⟨some (.err e), (doZoneE dbg p' inp z dses s).ops⟩
            | .panic => ⟨some .panic, (doZoneE dbg p' inp z dses s).ops⟩) =
          (match (doZoneE dbg p inp z dses s).res with
            | .ok st => (⟨(zoneLoopE dbg p inp fuel z st).res, (doZoneE dbg p inp z dses s).ops ++ (zoneLoopE dbg p inp fuel z st).ops⟩ :
                Traced (Option (Res VErr VState)))
            | .err e => ⟨some (.err e), (doZoneE dbg p inp z dses s).ops⟩
            | .panic => ⟨some .panic, (doZoneE dbg p inp z dses s).ops⟩) := by
        intro z dses s h
        rw [doZoneE_same z dses s (fun op ho => h op (by
          split
          · exact List.mem_append_left _ ho
          · exact ho
          · exact ho))]
        split
        · rename_i hr
          rw [hr] at h
          rw [zoneLoopE_same fuel z _ (fun op ho => h op (List.mem_append_right _ ho))]
        · rfl
        · rfl
      exact key _ _ _ h
    · rfl

theorem nsec3HashIterE_same (salt : Bytes) : ∀ n x, (∀ op ∈ (nsec3HashIterE p salt n x).ops, SameAnswer p p' op) →
    nsec3HashIterE p' salt n x = nsec3HashIterE p salt n x
  | 0, _, _ => rfl
  | n + 1, x, h => by
    rw [nsec3HashIterE] at h
    have h0 : p.sha1 (x ++ salt) = p'.sha1 (x ++ salt) := h _ (List.mem_cons_self ..)
    rw [nsec3HashIterE, nsec3HashIterE, ← h0, nsec3HashIterE_same salt n _ (fun op ho => h op (List.mem_cons_of_mem _ ho))]

theorem nsec3HashE_same (name salt : Bytes) (it : UInt16) (h : ∀ op ∈ (nsec3HashE p name salt it).ops, SameAnswer p p' op) :
    nsec3HashE p' name salt it = nsec3HashE p name salt it := by
  rw [nsec3HashE] at h
  have h0 : p.sha1 (writeName name ++ salt) = p'.sha1 (writeName name ++ salt) := h _ (List.mem_cons_self ..)
  rw [nsec3HashE, nsec3HashE, ← h0, nsec3HashIterE_same salt _ _ (fun op ho => h op (List.mem_cons_of_mem _ ho))]

theorem nsec3ParamsE_same (name : Bytes) : ∀ ns acc, (∀ op ∈ (nsec3ParamsE p name ns acc).ops, SameAnswer p p' op) →
    nsec3ParamsE p' name ns acc = nsec3ParamsE p name ns acc
  | [], _, _ => rfl
  | n :: ns, acc, h => by
    rw [nsec3ParamsE] at h ⊢
    rw [nsec3ParamsE]
    split
    · rename_i h1
      rw [if_pos h1] at h
      exact nsec3ParamsE_same name ns acc h
    · rename_i h1
      rw [if_neg h1] at h
      split
      · rename_i h2
        rw [if_pos h2] at h
        exact nsec3ParamsE_same name ns acc h
      · rename_i h2
        rw [if_neg h2] at h
        split
        · rename_i h3
          rw [if_pos h3] at h
          exact nsec3ParamsE_same name ns acc h
        · rename_i h3
          rw [if_neg h3] at h
          simp only at h ⊢
          rw [nsec3HashE_same name n.salt n.hashIterations (fun op ho => h op (by
            split
            · exact ho
            · exact List.mem_append_left _ ho))]
          split
          · rfl
          · rename_i h4
            rw [if_neg h4] at h
            rw [nsec3ParamsE_same name ns _ (fun op ho => h op (List.mem_append_right _ ho))]

theorem proofLoopE_same (res : List RR) : ∀ fuel needs, (∀ op ∈ (proofLoopE p res fuel needs).ops, SameAnswer p p' op) →
    proofLoopE p' res fuel needs = proofLoopE p res fuel needs
  | 0, needs, _ => by cases needs <;> rfl
  | _ + 1, [], _ => rfl
  | fuel + 1, need :: rest, h => by
    rw [proofLoopE] at h ⊢
    rw [proofLoopE]
    split
    · rename_i hf
      rw [hf] at h
      exact proofLoopE_same res fuel _ h
    · rename_i hf
      rw [hf] at h
      simp only at h ⊢
      rw [nsec3ParamsE_same need.name _ [] (fun op ho => h op (by
        split
        · exact List.mem_append_left _ ho
        · exact ho))]
      split
      · rename_i hf
        rw [hf] at h
        rw [proofLoopE_same res fuel _ (fun op ho => h op (List.mem_append_right _ ho))]
      · rfl

theorem finishVerifyE_same (hs : p'.sortNeeds = p.sortNeeds) (st : VState) (h : ∀ op ∈ (finishVerifyE p st).ops, SameAnswer p p' op) :
    finishVerifyE p' st = finishVerifyE p st := by
  rw [finishVerifyE] at h ⊢
  rw [finishVerifyE, hs]
  split
  · rfl
  · rename_i h1
    rw [if_neg h1] at h
    split
    · rfl
    · rename_i h2
      rw [if_neg h2] at h
      simp only at h ⊢
      rw [proofLoopE_same st.res _ _ (fun op ho => h op (by
        split
        · exact ho
        · exact ho
        · exact ho))]

theorem verifyRRStreamE_same (hs : p'.sortNeeds = p.sortNeeds) (fuel : Nat)
    (h : ∀ op ∈ (verifyRRStreamE dbg p fuel inp).ops, SameAnswer p p' op) :
    verifyRRStreamE dbg p' fuel inp = verifyRRStreamE dbg p fuel inp := by
  rw [verifyRRStreamE] at h ⊢
  rw [verifyRRStreamE]
  simp only at h ⊢
  rw [zoneLoopE_same fuel [dot] VState.init (fun op ho => h op (by
    split
    · exact ho
    · exact List.mem_append_left _ ho
    · exact ho
    · exact ho))]
  split
  · rfl
  · rename_i hz
    rw [hz] at h
    rw [finishVerifyE_same hs _ (fun op ho => h op (List.mem_append_right _ ho))]
  · rfl
  · rfl

end Dnssec
