import Verif.Proofs.Operators
import Verif.Props.Validation

/-! # C69: only what operators have signed verifies -/

namespace Dnssec.Props

open Dnssec.Spec

variable {dbg : Bool} {p : Platform} {W : Operators} {fuel : Nat} {bs : Bytes} {inp : List RR} {v : Verified}

/-- **C69.** Whoever made the proof `bs`: every record `r` it verifies is one the operator of a zone has signed, for the name of the
record or a wildcard above it; the returned records of that name and type are exactly those in the operator's statement, none added and
none left out; and the returned validity and TTL are within those of the statement. Assumed are operators, of the zones whose names are
suffixes of that of `r`, that only sign their own keys and delegations, and whose keys sign nothing without them. Missing: the
assumption is made for zones whose name is a suffix as text, not only those above `r` (next theorem). -/
theorem C69_only_signed_partial (hparse : parseRRStream dbg bs = .ok inp) (hv : verifyRRStream dbg p fuel inp = some (.ok v))
    (hroot : ∀ k : DnsKey, k.name = rootName → Anchored p ianaAnchors k → W.owns rootName k) {r : RR} (hr : r ∈ v.verifiedRrs)
    (hh : ∀ z : Name, (∃ pre, r.name.bytes = pre ++ z.bytes) → HonestOperator p W z) :
    ∃ z st, W.signed z st ∧ (∃ pre, r.name.bytes = pre ++ z.bytes) ∧ HasLabels z st.signer ∧ st.ty = r.ty ∧ OwnedBy r.name st.owner ∧
      (∀ d, d ∈ st.rdatas ↔ ∃ x ∈ v.verifiedRrs, x.name = r.name ∧ x.ty = r.ty ∧ rdata x = d) ∧
      instant st.inception ≤ v.validFrom ∧ v.expires ≤ instant st.expiration ∧ v.maxCacheTtl.toNat ≤ st.origTtl.toNat := by
  obtain ⟨ha, n43, n47, n50⟩ := (C27_exact hv r).mp hr
  obtain ⟨z, sig, st, hz, hs, hn, ht, hsuf, t1, t2, t3, t4, t5, t6, t7, t8, _⟩ := authenticated_signed hparse hv hroot ha hh
  have huse : Used (codeCheck p) p inp sig := ⟨z, hz, Or.inr hs⟩
  obtain ⟨w1, w2, _⟩ := C24_window hv
  refine ⟨z, st, t1, hsuf, t6, t2, t8, ?_, ?_, ?_, ?_⟩
  · intro d
    rw [t7]
    constructor
    · rintro ⟨x, hx, rfl⟩
      obtain ⟨x1, x2, x3⟩ := mem_rrset.mp hx
      obtain ⟨z', ksig', sig', a1, a2, a3, _, a5, a6⟩ := ha
      exact ⟨x, (C27_exact hv x).mpr ⟨⟨z', ksig', sig', a1, a2, a3, x1, x2.trans a5, x3.trans a6⟩, x3 ▸ n43, x3 ▸ n47, x3 ▸ n50⟩,
        x2, x3, rfl⟩
    · rintro ⟨x, hx, x2, x3, rfl⟩
      obtain ⟨_, _, _, _, _, _, a4, _, _⟩ := ((C27_exact hv x).mp hx).1
      exact ⟨x, mem_rrset.mpr ⟨a4, x2, x3⟩, rfl⟩
  · rw [t5]; exact w1.2 sig huse
  · rw [t4]; exact w2.2 sig huse
  · rw [t3]; exact (C25_ttl hv).2 sig huse

/-! ### A world of three zones, one of which is the attacker's -/

/-- The keys: of the root (its tag is that of the second root anchor), of `com.`, and of `oogle.com.`. -/
def oKey (z : String) : DnsKey :=
  ⟨⟨ascii z⟩, 257, 3, 8, if z = "." then [1, 3, 0x4A, 0x5A] else if z = "com." then [1, 3, 0x4A, 0x5B] else [1, 3, 0x4A, 0x5C]⟩

/-- Their tags. -/
def oTag (z : String) : UInt16 := if z = "." then 20326 else if z = "com." then 20327 else 20328

/-- The delegations. -/
def oDs (z : String) : DS := ⟨⟨ascii z⟩, oTag z, 8, 2, if z = "com." then [7] else [8]⟩

/-- A statement of the operator of the root or of `com.`. -/
def oSt (z : String) (ty : UInt16) (owner : List Bytes) (rd : Bytes) : Statement :=
  ⟨ty, 8, UInt8.ofNat owner.length, 3600, 2000000000, 1000000000, oTag z, if z = "." then [] else [ascii "com"], owner, [rd]⟩

/-- What they have signed: their keys, the delegations, and what else `com.` has signed. -/
def oSigned (more : List Statement) : List (Name × Statement) :=
  [(rootName, oSt "." 48 [] (rdata (.dnskey (oKey ".")))),
   (rootName, oSt "." 43 [ascii "com"] (rdata (.ds (oDs "com.")))),
   (⟨ascii "com."⟩, oSt "com." 48 [ascii "com"] (rdata (.dnskey (oKey "com.")))),
   (⟨ascii "com."⟩, oSt "com." 43 [ascii "oogle", ascii "com"] (rdata (.ds (oDs "oogle.com."))))] ++
  more.map (fun st => (⟨ascii "com."⟩, st))

/-- The operators. -/
def oWorld (more : List Statement) : Operators where
  owns z k := ∃ s ∈ [".", "com.", "oogle.com."], z = ⟨ascii s⟩ ∧ k = oKey s
  signed z st := (z, st) ∈ oSigned more

/-- SHA-256 distinguishes the keys. RSA verifies what was signed, and, if there is an attacker, everything under their key. -/
def oPlatform (attacker : Bool) (more : List Statement) : Platform :=
  testPlatform (fun _ => [])
    (fun b => if b = digestInput (oKey ".") then hintDigest else if b = digestInput (oKey "com.") then [7]
      else if b = digestInput (oKey "oogle.com.") then [8] else [])
    (fun n _ msg _ =>
      if n = [0x4A, 0x5A] then (oSigned more).any (fun s => s.1 = rootName && s.2.message == msg)
      else if n = [0x4A, 0x5B] then (oSigned more).any (fun s => s.1 = ⟨ascii "com."⟩ && s.2.message == msg)
      else attacker)

/-- The operator of `com.` has signed an address for `a.com.`. -/
def oAddress : List Statement := [oSt "com." 1 [ascii "a", ascii "com"] [1, 2, 3, 4]]

/-- An RRSIG. -/
def oSig (n : String) (ty : UInt16) (labels : UInt8) (z : String) : RR :=
  .rrsig ⟨⟨ascii n⟩, ty, 8, labels, 3600, 2000000000, 1000000000, oTag z, ⟨ascii z⟩, [1]⟩

/-- An honest proof for `a.com.`. -/
def oStream : List RR :=
  [.dnskey (oKey "."), oSig "." 48 0 ".", .ds (oDs "com."), oSig "com." 43 1 ".", .dnskey (oKey "com."), oSig "com." 48 1 "com.",
   wA "a.com.", oSig "a.com." 1 2 "com."]

/-- A proof by the attacker, for `google.com.`. -/
def oAttack : List RR :=
  [.dnskey (oKey "."), oSig "." 48 0 ".", .ds (oDs "com."), oSig "com." 43 1 ".", .dnskey (oKey "com."), oSig "com." 48 1 "com.",
   .ds (oDs "oogle.com."), oSig "oogle.com." 43 2 "com.", .dnskey (oKey "oogle.com."), oSig "oogle.com." 48 2 "oogle.com.",
   wA "google.com.", oSig "google.com." 1 2 "oogle.com."]

theorem key_of_rdata {k k' : DnsKey} (hn : k.name = k'.name) (h : rdata (.dnskey k) = rdata (.dnskey k')) : k = k' := by
  obtain ⟨n, f, pr, al, pk⟩ := k
  obtain ⟨n', f', pr', al', pk'⟩ := k'
  simp only at hn
  subst hn
  rw [rdata_dnskey, rdata_dnskey] at h
  obtain ⟨h1, h2⟩ := List.append_inj h (by simp)
  simp only [List.cons.injEq] at h2
  obtain ⟨rfl, rfl, rfl⟩ := h2
  rw [show f = f' from be16_inj h1]

theorem oKey_unique {k : DnsKey} {s : String} (hn : k.name = (oKey s).name) (h : digestInput k = digestInput (oKey s)) : k = oKey s := by
  unfold digestInput at h
  rw [hn] at h
  exact key_of_rdata hn (List.append_inj h rfl).2

theorem oSigned_cases {more : List Statement} {z : Name} {st : Statement} (h : (z, st) ∈ oSigned more) :
    (z = rootName ∧ st = oSt "." 48 [] (rdata (.dnskey (oKey ".")))) ∨
    (z = rootName ∧ st = oSt "." 43 [ascii "com"] (rdata (.ds (oDs "com.")))) ∨
    (z = ⟨ascii "com."⟩ ∧ st = oSt "com." 48 [ascii "com"] (rdata (.dnskey (oKey "com.")))) ∨
    (z = ⟨ascii "com."⟩ ∧ st = oSt "com." 43 [ascii "oogle", ascii "com"] (rdata (.ds (oDs "oogle.com.")))) ∨
    (z = ⟨ascii "com."⟩ ∧ st ∈ more) := by
  simp only [oSigned, List.mem_append, List.mem_cons, List.not_mem_nil, or_false, Prod.mk.injEq, List.mem_map] at h
  rcases h with (h | h | h | h) | ⟨x, hx, rfl, rfl⟩
  · exact .inl h
  · exact .inr (.inl h)
  · exact .inr (.inr (.inl h))
  · exact .inr (.inr (.inr (.inl h)))
  · exact .inr (.inr (.inr (.inr ⟨rfl, hx⟩)))

theorem oDelegation {att : Bool} {more : List Statement} {t : String} (hd : (oDs t).digest = [7] ∧ t = "com." ∨ (oDs t).digest = [8] ∧ t = "oogle.com.") {c : Name} {dses : List DS}
    (hc : c = (oKey t).name) (h2 : ∀ x, x ∈ [rdata (.ds (oDs t))] ↔ ∃ d ∈ dses, rdata (.ds d) = x) {k : DnsKey}
    (hk : k.name = c) (ha : Anchored (oPlatform att more) dses k) : k = oKey t := by
  obtain ⟨d, hd1, ⟨_, _, hv⟩, _⟩ := ha
  have e := (h2 (rdata (.ds d))).mpr ⟨d, hd1, rfl⟩
  rw [List.mem_singleton, rdata_ds, rdata_ds] at e
  obtain ⟨_, e⟩ := List.append_inj e (by simp)
  simp only [List.cons.injEq] at e
  obtain ⟨_, e2, e3⟩ := e
  rw [e2, e3] at hv
  rcases hv with ⟨h1, _⟩ | ⟨_, h1⟩
  · exact absurd h1 (by simp [oDs])
  · simp only [oPlatform, testPlatform] at h1
    rcases hd with ⟨hd, rfl⟩ | ⟨hd, rfl⟩
    · rw [hd] at h1
      split at h1
      · exact absurd h1 (by decide)
      · split at h1
        · rename_i e; exact oKey_unique (hk.trans hc) e
        · split at h1 <;> exact absurd h1 (by decide)
    · rw [hd] at h1
      split at h1
      · exact absurd h1 (by decide)
      · split at h1
        · exact absurd h1 (by decide)
        · split at h1
          · rename_i e; exact oKey_unique (hk.trans hc) e
          · exact absurd h1 (by decide)

theorem oCrypto {att : Bool} {more : List Statement} {n e pub msg s : Bytes} (hb : bytesToRsaPk pub = some (n, e)) (hc : CryptoOk (oPlatform att more) 8 pub msg s) :
    (oPlatform att more).rsaSha256 n e msg s = true := by
  cases hc with
  | rsaSha256 n' e' _ h1 h2 h3 h4 =>
    have := (bytesToRsaPk_iff _ _ _).mpr ⟨h2, h3, h1⟩
    rw [hb] at this
    obtain ⟨rfl, rfl⟩ := Prod.mk.inj (Option.some.inj this)
    exact h4
  | rsaSha512 _ _ h => exact absurd h (by decide)
  | ecdsaP256 h => exact absurd h (by decide)
  | ecdsaP384 h => exact absurd h (by decide)
  | ed25519 h => exact absurd h (by decide)

/-- The other statements are not about keys or delegations. -/
def oOrdinary (more : List Statement) : Prop := ∀ st ∈ more, (st.ty ≠ 43 ∧ st.ty ≠ 48) ∧
  (∀ l ∈ st.owner ++ st.signer, l ≠ [] ∧ l.length ≤ 63) ∧ ∀ d ∈ st.rdatas, d.length ≤ 65535

instance (more : List Statement) : Decidable (oOrdinary more) := by unfold oOrdinary; infer_instance

theorem oHonest {att : Bool} {more : List Statement} (hm : oOrdinary more) {z : Name}
    (hz : att = true → z ≠ ⟨ascii "oogle.com."⟩) : HonestOperator (oPlatform att more) (oWorld more) z := by
  refine ⟨?_, ?_, ?_, ?_⟩
  · rintro k msg s ⟨x, hx, rfl, rfl⟩ hc
    simp only [List.mem_cons, List.not_mem_nil, or_false] at hx
    rcases hx with rfl | rfl | rfl
    · have := oCrypto (n := [0x4A, 0x5A]) (e := [3]) (by decide) hc
      simp only [oPlatform, testPlatform, if_true, List.any_eq_true, Bool.and_eq_true, decide_eq_true_eq, beq_iff_eq] at this
      obtain ⟨⟨z, st⟩, h1, h2, h3⟩ := this
      simp only at h2 h3
      subst h2
      exact ⟨st, h1, h3⟩
    · have := oCrypto (n := [0x4A, 0x5B]) (e := [3]) (by decide) hc
      simp only [oPlatform, testPlatform] at this
      rw [if_neg (by decide), if_pos trivial] at this
      simp only [List.any_eq_true, Bool.and_eq_true, decide_eq_true_eq, beq_iff_eq] at this
      obtain ⟨⟨z, st⟩, h1, h2, h3⟩ := this
      simp only at h2 h3
      subst h2
      exact ⟨st, h1, h3⟩
    · have := oCrypto (n := [0x4A, 0x5C]) (e := [3]) (by decide) hc
      simp only [oPlatform, testPlatform] at this
      rw [if_neg (by decide), if_neg (by decide)] at this
      exact absurd rfl (hz this)
  · intro st hst
    rcases oSigned_cases hst with ⟨rfl, rfl⟩ | ⟨rfl, rfl⟩ | ⟨rfl, rfl⟩ | ⟨rfl, rfl⟩ | ⟨rfl, h⟩
    · decide +kernel
    · decide +kernel
    · decide +kernel
    · decide +kernel
    · exact (hm st h).2
  · intro st hst hty
    rcases oSigned_cases hst with ⟨rfl, rfl⟩ | ⟨rfl, rfl⟩ | ⟨rfl, rfl⟩ | ⟨rfl, rfl⟩ | ⟨rfl, h⟩
    · refine ⟨by decide, fun _ k hk hr => ⟨".", by simp, rfl, key_of_rdata hk (List.mem_singleton.mp hr)⟩⟩
    · exact absurd hty (by decide)
    · refine ⟨by decide, fun _ k hk hr => ⟨"com.", by simp, rfl, key_of_rdata hk (List.mem_singleton.mp hr)⟩⟩
    · exact absurd hty (by decide)
    · exact absurd hty (hm st h).1.2
  · intro st hst hty
    rcases oSigned_cases hst with ⟨rfl, rfl⟩ | ⟨rfl, rfl⟩ | ⟨rfl, rfl⟩ | ⟨rfl, rfl⟩ | ⟨rfl, h⟩
    · exact absurd hty (by decide)
    · refine ⟨by decide, ?_⟩
      intro c dses hc _ hd k hk ha
      have hcn : c = ⟨ascii "com."⟩ := by
        cases c; exact congrArg Name.mk (hc.bytes.trans (by decide))
      exact ⟨"com.", by simp, hcn, oDelegation (Or.inl ⟨by decide, rfl⟩) hcn hd hk ha⟩
    · exact absurd hty (by decide)
    · refine ⟨by decide, ?_⟩
      intro c dses hc _ hd k hk ha
      have hcn : c = ⟨ascii "oogle.com."⟩ := by
        cases c; exact congrArg Name.mk (hc.bytes.trans (by decide))
      exact ⟨"oogle.com.", by simp, hcn, oDelegation (Or.inr ⟨by decide, rfl⟩) hcn hd hk ha⟩
    · exact absurd hty (hm st h).1.1

theorem oRoot {att : Bool} {more : List Statement} {k : DnsKey} (hk : k.name = rootName) (ha : Anchored (oPlatform att more) ianaAnchors k) :
    (oWorld more).owns rootName k := by
  obtain ⟨d, hd, ⟨_, _, hv⟩, _⟩ := ha
  have h2 : ∀ d ∈ ianaAnchors, d.digestType = 2 ∧ d.digest ≠ [7] ∧ d.digest ≠ [8] ∧ d.digest ≠ [] := by decide +kernel
  obtain ⟨t2, n7, n8, n0⟩ := h2 d hd
  rcases hv with ⟨h1, _⟩ | ⟨_, h1⟩
  · rw [t2] at h1; exact absurd h1 (by decide)
  · simp only [oPlatform, testPlatform] at h1
    split at h1
    · rename_i e; exact ⟨".", by simp, rfl, oKey_unique hk e⟩
    · split at h1
      · exact absurd h1.symm n7
      · split at h1
        · exact absurd h1.symm n8
        · exact absurd h1.symm n0

/-- The example meets the hypotheses of `C69_only_signed_partial`. -/
example : ∃ bs v, parseRRStream false bs = .ok oStream ∧ verifyRRStream false (oPlatform true oAddress) 3 oStream = some (.ok v) ∧
    wA "a.com." ∈ v.verifiedRrs ∧ (∀ k : DnsKey, k.name = rootName → Anchored (oPlatform true oAddress) ianaAnchors k → (oWorld oAddress).owns rootName k) ∧
    ∀ z : Name, (∃ pre, (wA "a.com.").name.bytes = pre ++ z.bytes) → HonestOperator (oPlatform true oAddress) (oWorld oAddress) z := by
  refine ⟨(oStream.map (writeRR · 0)).flatten, ⟨[wA "a.com."], 1000000000, 2000000000, 3600⟩, by decide +kernel, by decide +kernel,
    by simp, fun _ => oRoot, ?_⟩
  rintro z ⟨pre, h⟩
  apply oHonest (by decide)
  rintro _ rfl
  have := congrArg List.length h
  have e1 : (wA "a.com.").name.bytes.length = 6 := by decide
  have e2 : (⟨ascii "oogle.com."⟩ : Name).bytes.length = 10 := by decide
  rw [List.length_append, e1, e2] at this
  omega

/-- **C69 is false** if only the operators of the zones above the name are honest: the attacker, who operates `oogle.com.`, gets an
address for `google.com.` verified that nobody has signed. -/
theorem C69_fails_for_textual_suffix : ∃ bs v, parseRRStream false bs = .ok oAttack ∧
    verifyRRStream false (oPlatform true oAddress) 4 oAttack = some (.ok v) ∧ wA "google.com." ∈ v.verifiedRrs ∧
    (∀ k : DnsKey, k.name = rootName → Anchored (oPlatform true oAddress) ianaAnchors k → (oWorld oAddress).owns rootName k) ∧
    (∀ z : Name, z ≠ ⟨ascii "oogle.com."⟩ → HonestOperator (oPlatform true oAddress) (oWorld oAddress) z) ∧
    ∀ z st, (oWorld oAddress).signed z st → ¬ OwnedBy ⟨ascii "google.com."⟩ st.owner := by
  refine ⟨(oAttack.map (writeRR · 0)).flatten, ⟨[wA "google.com."], 1000000000, 2000000000, 3600⟩, by decide +kernel, by decide +kernel,
    by simp, fun _ => oRoot, fun _ h => oHonest (by decide) (fun _ => h), ?_⟩
  intro z st hst ho
  have h1 : ∀ e ∈ oSigned oAddress, ¬ HasLabels ⟨ascii "google.com."⟩ e.2.owner ∧ e.2.owner.head? ≠ some (ascii "*") := by decide +kernel
  obtain ⟨a, b⟩ := h1 _ hst
  exact a (owned_labels ho b)

/-! ## C70 -/

/-- **C70.** If all operators are honest, then a verified record either is in a record set its operator signed under the record's own
name, or is in one signed for a wildcard, and then an operator has signed an NSEC or NSEC3 record that denies the name one label longer
than the parent of the wildcard, on the way to the record's name. Missing: that the record's name does not exist (next theorems). -/
theorem C70_wildcard_denied_partial (hparse : parseRRStream dbg bs = .ok inp) (hv : verifyRRStream dbg p fuel inp = some (.ok v))
    (hroot : ∀ k : DnsKey, k.name = rootName → Anchored p ianaAnchors k → W.owns rootName k) (hh : ∀ z, HonestOperator p W z)
    {r : RR} (hr : r ∈ v.verifiedRrs) {ls : List Bytes} (hl : HasLabels r.name ls) :
    ∃ z st, W.signed z st ∧ st.ty = r.ty ∧ rdata r ∈ st.rdatas ∧
      (st.owner = ls ∨ ∃ pre next suf, ls = pre ++ next :: suf ∧ st.owner = ascii "*" :: suf ∧ ∃ z' st', W.signed z' st' ∧
        ((∃ n : NSec, st'.ty = 47 ∧ HasLabels n.name st'.owner ∧ rdata (.nsec n) ∈ st'.rdatas ∧
            NsecDenies n (text (next :: suf)) r.ty) ∨
         (∃ n : NSec3, st'.ty = 50 ∧ HasLabels n.name st'.owner ∧ rdata (.nsec3 n) ∈ st'.rdatas ∧
            Nsec3Denies p n (text (next :: suf)) r.ty))) := by
  obtain ⟨ha, n43, n47, n50⟩ := (C27_exact hv r).mp hr
  have hin : r ∈ inp := by obtain ⟨_, _, _, _, _, _, h, _⟩ := ha; exact h
  obtain ⟨z, sig, st, hz, hs, hn, ht, _, t1, t2, _, _, _, _, t7, _, t9, t10⟩ := authenticated_signed hparse hv hroot ha (fun z _ => hh z)
  refine ⟨z, st, t1, t2, (t7 _).mpr ⟨r, mem_rrset.mpr ⟨hin, rfl, rfl⟩, rfl⟩, ?_⟩
  by_cases hx : Expanded sig
  · right
    have ho := owner_expanded t9 hl hn ht hx t10
    obtain ⟨pre, next, suf, e1, e2, hd⟩ := C28_wildcard_needs_denial hv z sig hz hs r hin hn.symm ht.symm (by rw [ht]; exact n43) hx ls
      (hn ▸ hl)
    have hsuf : ls.drop (ls.length - sig.labels.toNat) = suf := by
      rw [e1, ← e2, show pre ++ next :: suf = (pre ++ [next]) ++ suf by simp]
      exact List.drop_left' (by simp; omega)
    rw [hsuf] at ho
    refine ⟨pre, next, suf, e1, ho, ?_⟩
    obtain ⟨vst, hF, _⟩ := verifyRRStream_ok hv
    rcases hd with ⟨n, hna, hnd⟩ | ⟨n, hna, hnd⟩
    · have hni : RR.nsec n ∈ inp := by obtain ⟨_, _, _, _, _, _, h, _⟩ := hna; exact h
      obtain ⟨z', sig', st', hz', hs', hn', ht', _, u1, u2, _, _, _, _, u7, _, u9, u10⟩ :=
        authenticated_signed hparse hv hroot hna (fun z _ => hh z)
      refine ⟨z', st', u1, Or.inl ⟨n, u2, ?_, (u7 _).mpr ⟨_, mem_rrset.mpr ⟨hni, rfl, rfl⟩, rfl⟩, ht ▸ hnd⟩⟩
      exact owner_exact (stream_sized hparse _ hni).1 u9 hn' ht' (fun h => h.2 ht') u10
    · have hni : RR.nsec3 n ∈ inp := by obtain ⟨_, _, _, _, _, _, h, _⟩ := hna; exact h
      obtain ⟨z', sig', st', hz', hs', hn', ht', _, u1, u2, _, _, _, _, u7, _, u9, u10⟩ :=
        authenticated_signed hparse hv hroot hna (fun z _ => hh z)
      refine ⟨z', st', u1, Or.inr ⟨n, u2, ?_, (u7 _).mpr ⟨_, mem_rrset.mpr ⟨hni, rfl, rfl⟩, rfl⟩, ht ▸ hnd⟩⟩
      refine owner_exact (stream_sized hparse _ hni).1 u9 hn' ht' (fun h => ?_) u10
      have h50 : sig'.ty = 50 := ht'
      rcases (hF.sigs z' hz' sig' hs'.1).2 with hun | ⟨_, _, _, hacc⟩
      · have := hs'.2
        simp only [codeCheck] at hun this
        rw [hun] at this
        simp at this
      · exact (hacc (by rw [h50]; decide) h).1 h50
  · left
    have := owner_exact (stream_sized hparse _ hin).1 t9 hn ht hx t10
    exact this.unique hl

/-- A statement about a wildcard: the number of labels does not include the asterisk. -/
def oWildcard (ty : UInt16) (rd : Bytes) : Statement := { oSt "com." ty [ascii "*", ascii "com"] rd with labels := 1 }

/-- An NSEC record. -/
def oNsec (owner next : String) : RR := .nsec ⟨⟨ascii owner⟩, ⟨ascii next⟩, NSecTypeMask.fromTypes [1, 46, 47]⟩

/-- Its RDATA: the next name, and a bitmap with the types 1, 46 and 47. -/
def oNsecData (next : List Bytes) : Bytes := wire next ++ [0, 6, 0x40, 0, 0, 0, 0, 3]

theorem oNsec_rdata {owner next : String} {l : List Bytes} (h : HasLabels ⟨ascii next⟩ l) : rdata (oNsec owner next) = oNsecData l := by
  have e : writeNsecTypesBitmap (NSecTypeMask.fromTypes [1, 46, 47]).bytes.1 = [0, 6, 0x40, 0, 0, 0, 0, 3] := by decide +kernel
  have h2 := h.bytes
  simp only at h2
  rw [oNsec, rdata_nsec, oNsecData, e, h2, writeName_text h.labels]

/-- The keys and delegations up to `com.`. -/
def oPath : List RR :=
  [.dnskey (oKey "."), oSig "." 48 0 ".", .ds (oDs "com."), oSig "com." 43 1 ".", .dnskey (oKey "com."), oSig "com." 48 1 "com."]

/-- An address at `n` as if from the wildcard, and an NSEC record. -/
def oWild (n owner next : String) : List RR :=
  oPath ++ [wA n, oSig n 1 1 "com.", oNsec owner next, oSig owner 47 2 "com."]

theorem oWild_parse {n owner next : String} {l l' : List Bytes} (h1 : HasLabels ⟨ascii owner⟩ l) (h2 : HasLabels ⟨ascii next⟩ l')
    (h : (oPath ++ [wA n, oSig n 1 1 "com.", oSig owner 47 2 "com."]).all
      (fun r => decide (parseRR false (writeRR r 0) = .ok (r, []))) = true) :
    parseRRStream false ((oWild n owner next).map (writeRR · 0)).flatten = .ok (oWild n owner next) := by
  rw [parseRRStream_iff]
  refine ⟨(oWild n owner next).map (fun r => (writeRR r 0, r)), by simp [Function.comp_def], by simp [Function.comp_def], ?_⟩
  intro q hq
  obtain ⟨r, hr, rfl⟩ := List.mem_map.mp hq
  by_cases e : r = oNsec owner next
  · subst e
    have h3 : (rdata (oNsec owner next)).length ≤ 65535 := by
      have a1 := writeName_length_le (ascii next)
      have a2 := h2.short
      have a3 := writeNsecTypesBitmap_length_le (NSecTypeMask.fromTypes [1, 46, 47])
      simp only at a2
      rw [oNsec, rdata_nsec, List.length_append]
      simp only
      omega
    have he : Encodable (oNsec owner next) := ⟨⟨_, h1⟩, by simpa [oNsec, rdataNames] using ⟨_, h2⟩, by simp [oNsec], h3, by simp [oNsec]⟩
    have := parseRR_write false (oNsec owner next) he 0 []
    simpa using this
  · rw [List.all_eq_true] at h
    apply of_decide_eq_true
    apply h
    simp only [oWild, List.mem_append, List.mem_cons, List.not_mem_nil, or_false] at hr ⊢
    rcases hr with hr | hr | hr | hr | hr
    · exact .inl hr
    · exact .inr (.inl hr)
    · exact .inr (.inr (.inl hr))
    · exact absurd hr e
    · exact .inr (.inr (.inr hr))

/-- `com.` has a wildcard with an address and nothing else between `a.com.` and `zz.com.`. -/
def oMissing : List Statement :=
  [oWildcard 1 [1, 2, 3, 4], oSt "com." 47 [ascii "a", ascii "com"] (oNsecData [ascii "zz", ascii "com"])]

theorem oMissing_facts : parseRRStream false ((oWild "x.com." "a.com." "zz.com.").map (writeRR · 0)).flatten = .ok (oWild "x.com." "a.com." "zz.com.") ∧
    verifyRRStream false (oPlatform false oMissing) 3 (oWild "x.com." "a.com." "zz.com.") =
      some (.ok ⟨[wA "x.com."], 1000000000, 2000000000, 3600⟩) ∧ oOrdinary oMissing := by
  refine ⟨oWild_parse (l := [ascii "a", ascii "com"]) (l' := [ascii "zz", ascii "com"]) (by decide) (by decide) (by decide +kernel), ?_, ?_⟩
  · decide +kernel
  · decide +kernel

/-- The example meets the hypotheses of `C70_wildcard_denied_partial`, and is verified through a wildcard. -/
example : ∃ bs inp v, parseRRStream false bs = .ok inp ∧ verifyRRStream false (oPlatform false oMissing) 3 inp = some (.ok v) ∧
    wA "x.com." ∈ v.verifiedRrs ∧ HasLabels (wA "x.com.").name [ascii "x", ascii "com"] ∧
    (∀ k : DnsKey, k.name = rootName → Anchored (oPlatform false oMissing) ianaAnchors k → (oWorld oMissing).owns rootName k) ∧
    (∀ z, HonestOperator (oPlatform false oMissing) (oWorld oMissing) z) := by
  obtain ⟨h1, h2, h3⟩ := oMissing_facts
  exact ⟨_, _, _, h1, h2, List.mem_singleton.mpr rfl, by decide, fun _ => oRoot, fun _ => oHonest h3 (fun h => absurd h (by decide))⟩

/-- `com.` has a wildcard with an address, `x.com.` with another address, and a truthful NSEC record for `x.com.`. -/
def oExisting : List Statement :=
  [oWildcard 1 [1, 2, 3, 4], oSt "com." 1 [ascii "x", ascii "com"] [5, 6, 7, 8],
   oSt "com." 47 [ascii "x", ascii "com"] (oNsecData [ascii "z", ascii "com"])]

theorem oExisting_facts : parseRRStream false ((oWild "x.com." "x.com." "z.com.").map (writeRR · 0)).flatten = .ok (oWild "x.com." "x.com." "z.com.") ∧
    verifyRRStream false (oPlatform false oExisting) 3 (oWild "x.com." "x.com." "z.com.") =
      some (.ok ⟨[wA "x.com."], 1000000000, 2000000000, 3600⟩) ∧ oOrdinary oExisting := by
  refine ⟨oWild_parse (l := [ascii "x", ascii "com"]) (l' := [ascii "z", ascii "com"]) (by decide) (by decide) (by decide +kernel), ?_, ?_⟩
  · decide +kernel
  · decide +kernel

/-- **C70 is false**: with honest operators, the address of the wildcard is verified for `x.com.`, which has an address of its own; the
NSEC record that says so is taken for a denial. -/
theorem C70_fails_for_existing_name : ∃ bs inp v, parseRRStream false bs = .ok inp ∧
    verifyRRStream false (oPlatform false oExisting) 3 inp = some (.ok v) ∧
    (∀ k : DnsKey, k.name = rootName → Anchored (oPlatform false oExisting) ianaAnchors k → (oWorld oExisting).owns rootName k) ∧
    (∀ z, HonestOperator (oPlatform false oExisting) (oWorld oExisting) z) ∧
    (oWorld oExisting).signed ⟨ascii "com."⟩ (oSt "com." 1 [ascii "x", ascii "com"] [5, 6, 7, 8]) ∧
    RR.a ⟨⟨ascii "x.com."⟩, ⟨[1, 2, 3, 4], rfl⟩⟩ ∈ v.verifiedRrs ∧ RR.a ⟨⟨ascii "x.com."⟩, ⟨[5, 6, 7, 8], rfl⟩⟩ ∉ v.verifiedRrs := by
  obtain ⟨h1, h2, h3⟩ := oExisting_facts
  refine ⟨_, _, _, h1, h2, fun _ => oRoot, fun _ => oHonest h3 (fun h => absurd h (by decide)), ?_, List.mem_singleton.mpr rfl, ?_⟩
  · exact List.mem_append_right _ (List.mem_map_of_mem (f := fun st => (_, st)) (List.mem_cons_of_mem _ List.mem_cons_self))
  · decide +kernel

/-- `com.` has a wildcard with an address, `y.x.com.` with another address, nothing at `x.com.` itself, and a truthful NSEC record for
`a.com.`, the name before `y.x.com.`. -/
def oBelow : List Statement :=
  [oWildcard 1 [1, 2, 3, 4], oSt "com." 1 [ascii "y", ascii "x", ascii "com"] [5, 6, 7, 8],
   oSt "com." 47 [ascii "a", ascii "com"] (oNsecData [ascii "y", ascii "x", ascii "com"])]

theorem oBelow_facts : parseRRStream false ((oWild "y.x.com." "a.com." "y.x.com.").map (writeRR · 0)).flatten = .ok (oWild "y.x.com." "a.com." "y.x.com.") ∧
    verifyRRStream false (oPlatform false oBelow) 3 (oWild "y.x.com." "a.com." "y.x.com.") =
      some (.ok ⟨[wA "y.x.com."], 1000000000, 2000000000, 3600⟩) ∧ oOrdinary oBelow := by
  refine ⟨oWild_parse (l := [ascii "a", ascii "com"]) (l' := [ascii "y", ascii "x", ascii "com"]) (by decide) (by decide) (by decide +kernel), ?_, ?_⟩
  · decide +kernel
  · decide +kernel

/-- **C70 is false**: the same below an empty non-terminal. The NSEC record covers `x.com.`, but its next name is `y.x.com.`. -/
theorem C70_fails_below_empty_non_terminal : ∃ bs inp v, parseRRStream false bs = .ok inp ∧
    verifyRRStream false (oPlatform false oBelow) 3 inp = some (.ok v) ∧
    (∀ k : DnsKey, k.name = rootName → Anchored (oPlatform false oBelow) ianaAnchors k → (oWorld oBelow).owns rootName k) ∧
    (∀ z, HonestOperator (oPlatform false oBelow) (oWorld oBelow) z) ∧
    (oWorld oBelow).signed ⟨ascii "com."⟩ (oSt "com." 1 [ascii "y", ascii "x", ascii "com"] [5, 6, 7, 8]) ∧
    RR.a ⟨⟨ascii "y.x.com."⟩, ⟨[1, 2, 3, 4], rfl⟩⟩ ∈ v.verifiedRrs ∧
    RR.a ⟨⟨ascii "y.x.com."⟩, ⟨[5, 6, 7, 8], rfl⟩⟩ ∉ v.verifiedRrs := by
  obtain ⟨h1, h2, h3⟩ := oBelow_facts
  refine ⟨_, _, _, h1, h2, fun _ => oRoot, fun _ => oHonest h3 (fun h => absurd h (by decide)), ?_, List.mem_singleton.mpr rfl, ?_⟩
  · exact List.mem_append_right _ (List.mem_map_of_mem (f := fun st => (_, st)) (List.mem_cons_of_mem _ List.mem_cons_self))
  · decide +kernel

end Dnssec.Props
