import Verif.Proofs.Recovery
import Verif.Props.Operators

/-! # C115: what is signed with stolen keys expires -/

namespace Dnssec.Props

open Dnssec.Spec

variable {dbg : Bool} {p : Platform} {W : Operators} {T : Nat} {fuel : Nat} {bs : Bytes} {inp : List RR} {v : Verified}

/-- **C115.** Keys of zones may have been stolen, so that anybody can sign anything with them, as long as what vouches for them (DS
sets of parents and key sets, signed with other keys) expires by the time `T`. Whoever made the proof `bs`: if it is valid after `T`,
every record it verifies is one an operator has signed, in a statement valid for as long as the proof; no records are added or left out. -/
theorem C115_forgeries_expire (hparse : parseRRStream dbg bs = .ok inp) (hv : verifyRRStream dbg p fuel inp = some (.ok v))
    (hroot : ∀ k : DnsKey, k.name = rootName → Anchored p ianaAnchors k → W.owns rootName k) {r : RR} (hr : r ∈ v.verifiedRrs)
    (hh : ∀ z : Name, (∃ pre, r.name.bytes = pre ++ z.bytes) → HonestSince p W T z) (hT : T < v.expires) :
    ∃ z st, W.signed z st ∧ (∃ pre, r.name.bytes = pre ++ z.bytes) ∧ HasLabels z st.signer ∧ st.ty = r.ty ∧ OwnedBy r.name st.owner ∧
      (∀ d, d ∈ st.rdatas ↔ ∃ x ∈ v.verifiedRrs, x.name = r.name ∧ x.ty = r.ty ∧ rdata x = d) ∧
      instant st.inception ≤ v.validFrom ∧ v.expires ≤ instant st.expiration ∧ v.maxCacheTtl.toNat ≤ st.origTtl.toNat := by
  obtain ⟨ha, n43, n47, n50⟩ := (C27_exact hv r).mp hr
  obtain ⟨w1, w2, _⟩ := C24_window hv
  obtain ⟨z, sig, st, hz, hs, hn, ht, hsuf, t1, t2, t3, t4, t5, t6, t7, t8, _⟩ := authenticated_signed_since hparse hv hroot ha hh
    (fun s h => Nat.lt_of_lt_of_le hT (w2.2 s h))
  have huse : Used (codeCheck p) p inp sig := ⟨z, hz, Or.inr hs⟩
  refine ⟨z, st, t1, hsuf, t6, t2, t8, ?_, ?_, ?_, ?_⟩
  · intro d
    rw [t7]
    constructor
    · rintro ⟨x, hx, rfl⟩
      obtain ⟨x1, x2, x3⟩ := mem_rrset.mp hx
      obtain ⟨z', ksig', sig', a1, a2, a3, _, a5, a6⟩ := ha
      exact ⟨x, (C27_exact hv x).mpr ⟨⟨z', ksig', sig', a1, a2, a3, x1, x2.trans a5, x3.trans a6⟩, x3 ▸ n43, x3 ▸ n47, x3 ▸ n50⟩,
        x2, x3, rfl⟩
    · rintro ⟨x, hx, x2, x3, rfl⟩
      obtain ⟨_, _, _, _, _, _, a4, _, _⟩ := ((C27_exact hv x).mp hx).1
      exact ⟨x, mem_rrset.mpr ⟨a4, x2, x3⟩, rfl⟩
  · rw [t5]; exact w1.2 sig huse
  · rw [t4]; exact w2.2 sig huse
  · rw [t3]; exact (C25_ttl hv).2 sig huse

/-! ### A world in which the old key of `com.` has been stolen -/

/-- The old key of `com.`. -/
def sOld : DnsKey := ⟨⟨ascii "com."⟩, 257, 3, 8, [1, 3, 0x4A, 0x5C]⟩

/-- The DS record for it. -/
def sOldDs : DS := ⟨⟨ascii "com."⟩, 20328, 8, 2, [8]⟩

/-- What the operators have signed: the root its key, the delegation to the old key until 1500000000 and the one to the new key; `com.` its
old key set until then, its new one, and an address. -/
def sSigned : List (Name × Statement) :=
  [(rootName, oSt "." 48 [] (rdata (.dnskey (oKey ".")))),
   (rootName, { oSt "." 43 [ascii "com"] (rdata (.ds sOldDs)) with expiration := 1500000000 }),
   (rootName, oSt "." 43 [ascii "com"] (rdata (.ds (oDs "com.")))),
   (⟨ascii "com."⟩, { oSt "com." 48 [ascii "com"] (rdata (.dnskey sOld)) with keyTag := 20328, expiration := 1500000000 }),
   (⟨ascii "com."⟩, oSt "com." 48 [ascii "com"] (rdata (.dnskey (oKey "com.")))),
   (⟨ascii "com."⟩, oSt "com." 1 [ascii "a", ascii "com"] [1, 2, 3, 4])]

/-- The operators, with the keys that are still theirs. -/
def sWorld : Operators where
  owns z k := ∃ s ∈ [".", "com."], z = ⟨ascii s⟩ ∧ k = oKey s
  signed z st := (z, st) ∈ sSigned

/-- RSA verifies what was signed, and everything under the stolen key. -/
def sPlatform : Platform :=
  testPlatform (fun _ => [])
    (fun b => if b = digestInput (oKey ".") then hintDigest else if b = digestInput (oKey "com.") then [7]
      else if b = digestInput sOld then [8] else [])
    (fun n _ msg _ =>
      if n = [0x4A, 0x5A] then sSigned.any (fun s => s.1 = rootName && s.2.message == msg)
      else if n = [0x4A, 0x5B] then sSigned.any (fun s => s.1 = ⟨ascii "com."⟩ && s.2.message == msg)
      else true)

/-- A proof with the new key. -/
def sNewProof : List RR := oPath ++ [wA "a.com.", oSig "a.com." 1 2 "com."]

/-- A forged proof, made with the stolen key: an address nobody has signed. All that the thief signs expires much later. -/
def sForged : List RR :=
  [.dnskey (oKey "."), oSig "." 48 0 ".",
   .ds sOldDs, .rrsig ⟨⟨ascii "com."⟩, 43, 8, 1, 3600, 1500000000, 1000000000, 20326, ⟨ascii "."⟩, [1]⟩,
   .dnskey sOld, .rrsig ⟨⟨ascii "com."⟩, 48, 8, 1, 3600, 3000000000, 1000000000, 20328, ⟨ascii "com."⟩, [1]⟩,
   wA "b.com.", .rrsig ⟨⟨ascii "b.com."⟩, 1, 8, 2, 3600, 3000000000, 1000000000, 20328, ⟨ascii "com."⟩, [1]⟩]

theorem sRoot {k : DnsKey} (hk : k.name = rootName) (ha : Anchored sPlatform ianaAnchors k) : sWorld.owns rootName k := by
  obtain ⟨d, hd, ⟨_, _, hv⟩, _⟩ := ha
  have h2 : ∀ d ∈ ianaAnchors, d.digestType = 2 ∧ d.digest ≠ [7] ∧ d.digest ≠ [8] ∧ d.digest ≠ [] := by decide +kernel
  obtain ⟨t2, n7, n8, n0⟩ := h2 d hd
  rcases hv with ⟨h1, _⟩ | ⟨_, h1⟩
  · rw [t2] at h1; exact absurd h1 (by decide)
  · simp only [sPlatform, testPlatform] at h1
    split at h1
    · rename_i e; exact ⟨".", by simp, rfl, oKey_unique hk e⟩
    · split at h1
      · exact absurd h1.symm n7
      · split at h1
        · exact absurd h1.symm n8
        · exact absurd h1.symm n0

theorem sCrypto {n e pub msg s : Bytes} (hb : bytesToRsaPk pub = some (n, e)) (hc : CryptoOk sPlatform 8 pub msg s) :
    sPlatform.rsaSha256 n e msg s = true := by
  cases hc with
  | rsaSha256 n' e' _ h1 h2 h3 h4 =>
    have := (bytesToRsaPk_iff _ _ _).mpr ⟨h2, h3, h1⟩
    rw [hb] at this
    obtain ⟨rfl, rfl⟩ := Prod.mk.inj (Option.some.inj this)
    exact h4
  | rsaSha512 _ _ h => exact absurd h (by decide)
  | ecdsaP256 h => exact absurd h (by decide)
  | ecdsaP384 h => exact absurd h (by decide)
  | ed25519 h => exact absurd h (by decide)

theorem sSigned_cases {z : Name} {st : Statement} (h : (z, st) ∈ sSigned) :
    (z = rootName ∧ st = oSt "." 48 [] (rdata (.dnskey (oKey ".")))) ∨
    (z = rootName ∧ st = { oSt "." 43 [ascii "com"] (rdata (.ds sOldDs)) with expiration := 1500000000 }) ∨
    (z = rootName ∧ st = oSt "." 43 [ascii "com"] (rdata (.ds (oDs "com.")))) ∨
    (z = ⟨ascii "com."⟩ ∧
      st = { oSt "com." 48 [ascii "com"] (rdata (.dnskey sOld)) with keyTag := 20328, expiration := 1500000000 }) ∨
    (z = ⟨ascii "com."⟩ ∧ st = oSt "com." 48 [ascii "com"] (rdata (.dnskey (oKey "com.")))) ∨
    (z = ⟨ascii "com."⟩ ∧ st = oSt "com." 1 [ascii "a", ascii "com"] [1, 2, 3, 4]) := by
  simpa only [sSigned, List.mem_cons, List.not_mem_nil, or_false, Prod.mk.injEq] using h

theorem sFits : ∀ q ∈ sSigned, (∀ l ∈ q.2.owner ++ q.2.signer, l ≠ [] ∧ l.length ≤ 63) ∧ ∀ d ∈ q.2.rdatas, d.length ≤ 65535 := by
  decide +kernel

theorem sHonest (z : Name) : HonestSince sPlatform sWorld 1500000000 z := by
  refine ⟨?_, fun st h => sFits _ h, ?_, ?_⟩
  · rintro k msg s ⟨x, hx, rfl, rfl⟩ hc
    simp only [List.mem_cons, List.not_mem_nil, or_false] at hx
    rcases hx with rfl | rfl
    · have := sCrypto (n := [0x4A, 0x5A]) (e := [3]) (by decide) hc
      simp only [sPlatform, testPlatform, if_true, List.any_eq_true, Bool.and_eq_true, decide_eq_true_eq, beq_iff_eq] at this
      obtain ⟨⟨z, st⟩, h1, h2, h3⟩ := this
      simp only at h2 h3
      subst h2
      exact ⟨st, h1, h3⟩
    · have := sCrypto (n := [0x4A, 0x5B]) (e := [3]) (by decide) hc
      simp only [sPlatform, testPlatform] at this
      rw [if_neg (by decide), if_pos trivial] at this
      simp only [List.any_eq_true, Bool.and_eq_true, decide_eq_true_eq, beq_iff_eq] at this
      obtain ⟨⟨z, st⟩, h1, h2, h3⟩ := this
      simp only at h2 h3
      subst h2
      exact ⟨st, h1, h3⟩
  · intro st hst hty
    rcases sSigned_cases hst with ⟨rfl, rfl⟩ | ⟨rfl, rfl⟩ | ⟨rfl, rfl⟩ | ⟨rfl, rfl⟩ | ⟨rfl, rfl⟩ | ⟨rfl, rfl⟩
    · exact ⟨by decide, fun _ k hk hr => .inl ⟨".", by simp, rfl, key_of_rdata hk (List.mem_singleton.mp hr)⟩⟩
    · exact absurd hty (by decide)
    · exact absurd hty (by decide)
    · exact ⟨by decide, fun _ k hk hr => .inr (by decide)⟩
    · exact ⟨by decide, fun _ k hk hr => .inl ⟨"com.", by simp, rfl, key_of_rdata hk (List.mem_singleton.mp hr)⟩⟩
    · exact absurd hty (by decide)
  · intro st hst hty
    rcases sSigned_cases hst with ⟨rfl, rfl⟩ | ⟨rfl, rfl⟩ | ⟨rfl, rfl⟩ | ⟨rfl, rfl⟩ | ⟨rfl, rfl⟩ | ⟨rfl, rfl⟩
    · exact absurd hty (by decide)
    · exact ⟨by decide, fun _ _ _ _ _ _ _ _ => .inr (by decide)⟩
    · refine ⟨by decide, ?_⟩
      intro c dses hc _ hd k hk ha
      have hcn : c = ⟨ascii "com."⟩ := by
        cases c; exact congrArg Name.mk (hc.bytes.trans (by decide))
      refine .inl ⟨"com.", by simp, hcn, ?_⟩
      obtain ⟨d, hd1, ⟨_, _, hv⟩, _⟩ := ha
      have e := (hd (rdata (.ds d))).mpr ⟨d, hd1, rfl⟩
      simp only [oSt] at e
      rw [List.mem_singleton, rdata_ds, rdata_ds] at e
      obtain ⟨_, e⟩ := List.append_inj e (by simp)
      simp only [List.cons.injEq] at e
      obtain ⟨_, e2, e3⟩ := e
      rw [e2, e3] at hv
      rcases hv with ⟨h1, _⟩ | ⟨_, h1⟩
      · exact absurd h1 (by simp [oDs])
      · simp only [sPlatform, testPlatform] at h1
        rw [show (oDs "com.").digest = [7] by decide] at h1
        split at h1
        · exact absurd h1 (by decide)
        · split at h1
          · rename_i e; exact oKey_unique (hk.trans hcn) e
          · split at h1 <;> exact absurd h1 (by decide)
    · exact absurd hty (by decide)
    · exact absurd hty (by decide)
    · exact absurd hty (by decide)

/-- The example meets the hypotheses of `C115_forgeries_expire`: a proof with the new key. -/
example : ∃ bs v, parseRRStream false bs = .ok sNewProof ∧ verifyRRStream false sPlatform 3 sNewProof = some (.ok v) ∧
    wA "a.com." ∈ v.verifiedRrs ∧ 1500000000 < v.expires ∧
    (∀ k : DnsKey, k.name = rootName → Anchored sPlatform ianaAnchors k → sWorld.owns rootName k) ∧
    ∀ z : Name, (∃ pre, (wA "a.com.").name.bytes = pre ++ z.bytes) → HonestSince sPlatform sWorld 1500000000 z :=
  ⟨(sNewProof.map (writeRR · 0)).flatten, ⟨[wA "a.com."], 1000000000, 2000000000, 3600⟩, by decide +kernel, by decide +kernel,
    by simp, by decide, fun _ => sRoot, fun z _ => sHonest z⟩

/-- **C115, the time is exact**: what the thief makes with the stolen key is accepted, but only until `T`, when the DS set for it expires,
although everything the thief has signed expires much later. (So `T < v.expires` cannot be weakened to `T ≤ v.expires`.) -/
theorem C115_until_then : ∃ bs v, parseRRStream false bs = .ok sForged ∧ verifyRRStream false sPlatform 3 sForged = some (.ok v) ∧
    wA "b.com." ∈ v.verifiedRrs ∧ v.expires = 1500000000 ∧
    (∀ k : DnsKey, k.name = rootName → Anchored sPlatform ianaAnchors k → sWorld.owns rootName k) ∧
    (∀ z : Name, HonestSince sPlatform sWorld 1500000000 z) ∧
    ∀ z st, sWorld.signed z st → ¬ OwnedBy ⟨ascii "b.com."⟩ st.owner := by
  refine ⟨(sForged.map (writeRR · 0)).flatten, ⟨[wA "b.com."], 1000000000, 1500000000, 3600⟩, by decide +kernel, by decide +kernel,
    by simp, rfl, fun _ => sRoot, sHonest, ?_⟩
  intro z st hst ho
  have h1 : ∀ e ∈ sSigned, ¬ HasLabels ⟨ascii "b.com."⟩ e.2.owner ∧ e.2.owner.head? ≠ some (ascii "*") := by decide +kernel
  obtain ⟨a, b⟩ := h1 _ hst
  exact a (owned_labels ho b)

end Dnssec.Props
