import Verif.Proofs.Trust
import Verif.Proofs.Records
import Verif.Props.Validation
import Verif.Props.Resolve
import Verif.Props.Wire

/-! # C62, C64-C66: the root of trust, end to end, signature operations, signers -/

namespace Dnssec.Props

open Dnssec Spec

variable {dbg : Bool} {p : Platform} {fuel : Nat} {inp : List RR} {v : Verified}

/-! ## C62 -/

/-- **C62.** Nothing is accepted without a signature of a root key of IANA: on success the stream contains a DNSKEY of the root,
algorithm 8, whose key tag and SHA-256 digest are one of the two pairs IANA publishes, and an RRSIG that verifies with RSA/SHA-256 under
this key over exactly the DNSKEY set of the root in the stream, in canonical form and order. -/
theorem C62_root_of_trust (h : verifyRRStream dbg p fuel inp = some (.ok v)) :
    ∃ k sig e n order body, RR.dnskey k ∈ inp ∧ k.name = ⟨ascii "."⟩ ∧ k.alg = 8 ∧ k.protocol = 3 ∧ k.flags.toNat.testBit 8 = true ∧
      (keyTag (rdata (.dnskey k)), p.sha256 (0 :: rdata (.dnskey k))) ∈ ianaRootKeys ∧ RsaKey k.pubkey e n ∧
      RR.rrsig sig ∈ inp ∧ sig.name = ⟨ascii "."⟩ ∧ sig.ty = 48 ∧
      order.Perm (inp.filter (fun r => r.name = ⟨ascii "."⟩ ∧ r.ty = 48)) ∧ Sorted order ∧ SignedRRs sig order body ∧
      p.rsaSha256 n e (signedHeader sig ++ body) sig.signature = true := by
  obtain ⟨sig, _, before, after, e1, _, h3⟩ := C21_all_key_sets h rootName .root
  have hm : sig ∈ keySigs inp rootName := by rw [e1]; simp
  obtain ⟨hs1, hs2, hs3⟩ := mem_keySigs.mp hm
  obtain ⟨_, k, msg, ⟨pre, post, e2, he, _⟩, hd, hc⟩ := (verifyRrsig_ok_iff _ _ _ _).mp h3
  have hk : k ∈ anchoredKeys p (anchors inp rootName) (keysAt inp rootName) := by rw [e2]; simp
  obtain ⟨hk1, hk2⟩ := List.mem_filter.mp hk
  obtain ⟨hk3, hk4⟩ := mem_keysAt.mp hk1
  obtain ⟨d, hd1, ⟨hd2, hd3, hd4⟩, _⟩ := of_decide_eq_true hk2
  have hdig : digestInput k = 0 :: rdata (.dnskey k) := by
    unfold digestInput; rw [hk4]; rfl
  rw [hdig] at hd4
  have hd5 : d.alg = 8 ∧ d.digestType = 2 ∧ (d.keyTag.toNat, d.digest) ∈ ianaRootKeys := by
    have hd1 : d ∈ ianaAnchors := by simpa [anchors] using hd1
    simp only [ianaAnchors, List.mem_cons, List.not_mem_nil, or_false] at hd1
    rcases hd1 with rfl | rfl <;> exact ⟨rfl, rfl, by simp [ianaRootKeys]⟩
  have halg : k.alg = 8 := hd2.symm.trans hd5.1
  have hsa : sig.alg = 8 := he.alg.symm.trans halg
  have hroot : HasLabels rootName [] := ⟨by simp, rfl, by decide⟩
  have hrr : (keysAt inp rootName).map RR.dnskey = inp.filter (fun r => r.name = ⟨ascii "."⟩ ∧ r.ty = 48) := by
    unfold keysAt
    have : ∀ l : List RR, (l.filterMap fun | .dnskey k => if k.name = rootName then some k else none | _ => none).map RR.dnskey =
        l.filter (fun r => r.name = ⟨ascii "."⟩ ∧ r.ty = 48) := by
      intro l
      induction l with
      | nil => rfl
      | cons r l ih =>
        rw [List.filter_cons, List.filterMap_cons]
        cases r with
        | dnskey k =>
          by_cases hn : k.name = rootName
          · simp only [hn, if_true, List.map_cons, ih]
            rw [if_pos (by simp only [decide_eq_true_iff]; exact ⟨hn, rfl⟩)]
          · simp only [hn, if_false, ih]
            rw [if_neg (by simp only [decide_eq_true_iff]; exact fun e => hn e.1)]
        | _ => simp only [ih]; rw [if_neg (by simp only [decide_eq_true_iff]; exact fun e => absurd e.2 (by simp [RR.ty]; decide))]
    exact this inp
  rw [hrr] at hd
  have hname : ∀ r ∈ inp.filter (fun r => r.name = ⟨ascii "."⟩ ∧ r.ty = 48), r.name = rootName ∧ r.ty = 48 := by
    intro r hr; have := (List.mem_filter.mp hr).2; simp only [decide_eq_true_iff] at this; exact this
  have hpr : Proper (inp.filter (fun r => r.name = ⟨ascii "."⟩ ∧ r.ty = 48)) :=
    ⟨fun r hr => ⟨[], by rw [(hname r hr).1]; exact hroot⟩, fun r hr r' hr' => (hname r hr).1.trans (hname r' hr').1.symm,
     fun t ht => absurd (hname _ ht).2 (by simp [RR.ty]; decide), fun r hr _ _ _ => .inl (by rw [(hname r hr).2]; decide)⟩
  unfold signedData at hd
  rw [Option.map_eq_some_iff] at hd
  obtain ⟨body, hb, rfl⟩ := hd
  have hperm := sortRRs_perm (inp.filter (fun r => r.name = ⟨ascii "."⟩ ∧ r.ty = 48))
  have hb := (signedRecords_iff (fun r hr => hpr.labels r (hperm.mem_iff.mp hr)) (fun t ht => hpr.txt t (hperm.mem_iff.mp ht)) body).mp hb
  have hsorted := (sorted_iff hpr (fun r hr r' hr' => (hname r hr).2.trans (hname r' hr').2.symm) (fun r hr => hperm.mem_iff.mp hr)).mp
    (sortRRs_sorted (inp.filter (fun r => r.name = ⟨ascii "."⟩ ∧ r.ty = 48)))
  rw [sigPrefix_eq] at hc
  rcases hc with ⟨n, e, _, _, hrsa, _, hv⟩ | ⟨_, _, h', _⟩ | ⟨h', _⟩ | ⟨h', _⟩ | ⟨h', _⟩
  · refine ⟨k, sig, e, n, _, body, hk3, hk4, halg, he.protocol, he.zoneKey, ?_, hrsa, hs1, hs2, hs3, hperm, hsorted, hb, hv⟩
    rw [← hd3]
    rcases hd4 with ⟨h1, _⟩ | ⟨_, h2⟩
    · rw [hd5.2.1] at h1; exact absurd h1 (by decide)
    · rw [h2]; exact hd5.2.2
  all_goals (rw [hsa] at h'; exact absurd h' (by decide))

example : verifyRRStream true wPlatform 5 wStream = some (.ok ⟨[wA "a.c."], 1000000000, 2000000000, 3600⟩) := wStream_ok true

/-! ## C64 -/

/-- **C64.** What the whole pipeline - parse the bytes, verify, resolve - returns for a name: each record is in the bytes, is
authenticated by a chain of trust from the root anchors, and is at the name that a chain of authenticated aliases leads to. -/
theorem C64_end_to_end (bytes : Bytes) (f : Nat) (n : Name) (l : List RR) (hb : parseRRStream dbg bytes = .ok inp)
    (hv : verifyRRStream dbg p fuel inp = some (.ok v)) (hr : resolveName v.verifiedRrs f n = some (.ok l)) :
    (∀ r ∈ v.verifiedRrs, Authenticated (codeCheck p) p inp r) ∧ ∃ k m, Chain v.verifiedRrs n k m ∧
      ∀ r ∈ l, r.name = m ∧ r ∈ v.verifiedRrs ∧ ∃ before piece after ttl, bytes = before ++ piece ++ after ∧ ReadsRecord dbg [] piece (r, ttl) [] := by
  refine ⟨C21_chain_of_trust hv, ?_⟩
  obtain ⟨k, m, l', h1, h2, e⟩ := (C33_returns_iff (.ok l)).mp ⟨f, hr⟩
  obtain rfl := Res.ok.inj e
  refine ⟨k, m, h1, ?_⟩
  intro r hm
  have hm' : r ∈ v.verifiedRrs ∧ r.name = m := by
    cases h2 with
    | records => simpa using List.mem_filter.mp hm
    | invalid => simp at hm
  refine ⟨hm'.2, hm'.1, ?_⟩
  obtain ⟨_, _, _, _, _, _, hin, _⟩ := C21_chain_of_trust hv r hm'.1
  obtain ⟨ps, rfl, rfl, h3⟩ := (parseRRStream_iff _ _ _).mp hb
  obtain ⟨q, hq, rfl⟩ := List.mem_map.mp hin
  obtain ⟨ttl, h4⟩ := parseRR_iff.mp (h3 q hq)
  obtain ⟨a, b, rfl⟩ := List.append_of_mem hq
  exact ⟨(a.map Prod.fst).flatten, q.1, (b.map Prod.fst).flatten, ttl, by simp, h4⟩

/-- **C64, converse.** Every authenticated record (other than DS, NSEC, NSEC3) at a name without aliases is in the answer. -/
theorem C64_complete (n : Name) (r : RR) (hv : verifyRRStream dbg p fuel inp = some (.ok v))
    (ha : Authenticated (codeCheck p) p inp r) (ht : r.ty ≠ 43 ∧ r.ty ≠ 47 ∧ r.ty ≠ 50) (hn : r.name = n)
    (hc : ∀ x, Authenticated (codeCheck p) p inp x → ¬ CnameAt n x) (hd : ∀ x, Authenticated (codeCheck p) p inp x → ¬ DnameFor n x) (f : Nat) :
    ∃ l, resolveName v.verifiedRrs f n = some (.ok l) ∧ r ∈ l := by
  have h1 := fun x hx => C21_chain_of_trust hv x hx
  refine ⟨_, C33_no_alias (fun x hx => hc x (h1 x hx)) (fun x hx => hd x (h1 x hx)) f, ?_⟩
  rw [List.mem_filter]
  exact ⟨(C27_exact hv r).mpr ⟨ha, ht⟩, by simp [hn]⟩

/-- The bytes of `wStream` go through the whole pipeline. -/
example : parseRRStream true (wStream.map (writeRR · 60)).flatten = .ok wStream ∧
    verifyRRStream true wPlatform 5 wStream = some (.ok ⟨[wA "a.c."], 1000000000, 2000000000, 3600⟩) ∧
    resolveName [wA "a.c."] 0 ⟨ascii "a.c."⟩ = some (.ok [wA "a.c."]) := by
  refine ⟨by decide +kernel, wStream_ok true, by decide +kernel⟩

/-! ## C65 -/

/-- **C65.** One call of `verify_rrsig` depends on a single answer of the signature library, however many keys share the key tag
(the "KeyTrap" attacks, CVE-2023-50387, multiply keys and signatures). -/
theorem C65_one_check_per_call (sig : RRSig) (keys : List DnsKey) (records : List RR) :
    ∃ q : Question, ∀ p p' : Platform, q.answer p = q.answer p' → verifyRrsig p sig keys records = verifyRrsig p' sig keys records :=
  verifyRrsig_question sig keys records

/-- **C65.** So does a whole run, for each RRSIG in the input: for given hash functions there is one question per RRSIG, and two
signature libraries that give the same answers to these give the same result. -/
theorem C65_one_check_per_rrsig (inp : List RR) (sha1 sha256 : Bytes → Bytes) : ∃ f : RRSig → Question,
    ∀ p p' : Platform, p.sha1 = sha1 → p.sha256 = sha256 → p'.sha1 = sha1 → p'.sha256 = sha256 → p.sortNeeds = p'.sortNeeds →
      (∀ s, RR.rrsig s ∈ inp → (f s).answer p = (f s).answer p') →
      ∀ dbg fuel, verifyRRStream dbg p fuel inp = verifyRRStream dbg p' fuel inp := by
  let p0 := testPlatform sha1 sha256 (fun _ _ _ _ => false)
  have hf : ∀ s : RRSig, ∃ q : Question, ∀ p p' : Platform, q.answer p = q.answer p' →
      (s.ty = 48 → verifyRrsig p s (validatedKeys p0 (anchors inp s.name) (keysAt inp s.name)) ((keysAt inp s.name).map .dnskey) =
        verifyRrsig p' s (validatedKeys p0 (anchors inp s.name) (keysAt inp s.name)) ((keysAt inp s.name).map .dnskey)) ∧
      (s.ty ≠ 48 → verifyRrsig p s (keysAt inp s.keyName) (rrset inp s.name s.ty) =
        verifyRrsig p' s (keysAt inp s.keyName) (rrset inp s.name s.ty)) := by
    intro s
    by_cases ht : s.ty = 48
    · obtain ⟨q, hq⟩ := verifyRrsig_question s (validatedKeys p0 (anchors inp s.name) (keysAt inp s.name)) ((keysAt inp s.name).map .dnskey)
      exact ⟨q, fun p p' h => ⟨fun _ => hq p p' h, fun h' => absurd ht h'⟩⟩
    · obtain ⟨q, hq⟩ := verifyRrsig_question s (keysAt inp s.keyName) (rrset inp s.name s.ty)
      exact ⟨q, fun p p' h => ⟨fun h' => absurd h' ht, fun _ => hq p p' h⟩⟩
  refine ⟨fun s => (hf s).choose, ?_⟩
  intro p p' a1 a2 b1 b2 hs hq dbg fuel
  refine verifyRRStream_congr ⟨?_, ?_⟩ (a1.trans b1.symm) (a2.trans b2.symm) hs fuel
  · intro s hm ht
    rw [validatedKeys_congr (p' := p0) a1 a2]
    exact ((hf s).choose_spec p p' (hq s hm)).1 ht
  · intro s hm ht
    exact ((hf s).choose_spec p p' (hq s hm)).2 ht

/-- Two libraries that differ a lot but agree on what is asked for `wStream`, where the answer matters. -/
example : verifyRRStream true wPlatform 5 wStream ≠
    verifyRRStream true (testPlatform wPlatform.sha1 wPlatform.sha256 (fun _ _ _ _ => false)) 5 wStream := by decide +kernel

/-! ## C20 for every name and order -/

/-- **C20, soundness for all RRsets** (no hypothesis on owner names or the order): an accepted RRSIG verifies, under one of the given
keys that is a zone key with its tag and algorithm, over the RRSIG header and exactly the given records in some order, each with its
RDATA. Missing: TXT records with empty data (C05). -/
theorem C20_sound_partial (sig : RRSig) (keys : List DnsKey) (records : List RR) (h : verifyRrsig p sig keys records = .ok ())
    (ht : ∀ t, RR.txt t ∈ records → t.data ≠ []) :
    (∀ r ∈ records, r.ty = sig.ty) ∧ ∃ k ∈ keys, Eligible sig k ∧ ∃ order body, order.Perm records ∧ RecordsBytes sig order body ∧
      CryptoOk p sig.alg k.pubkey (signedHeader sig ++ body) sig.signature := by
  obtain ⟨h1, k, msg, ⟨pre, post, e2, he, _⟩, hd, hc⟩ := (verifyRrsig_ok_iff _ _ _ _).mp h
  obtain ⟨order, body, ho, hb, rfl⟩ := signedData_bytes hd ht
  exact ⟨h1, k, by rw [e2]; simp, he, order, body, ho, hb, hc⟩

/-- Met by a set of two NS records whose order is not canonical (so that C20_accept_iff_partial does not apply). -/
example : verifyRrsig wPlatform ⟨⟨ascii "c."⟩, 2, 8, 1, 3600, 2000000000, 1000000000, 20326, ⟨ascii "c."⟩, [1]⟩
    [⟨⟨ascii "c."⟩, 257, 3, 8, [1, 3, 0x4A, 0x5A]⟩] [.ns ⟨⟨ascii "c."⟩, ⟨ascii "b.a."⟩⟩, .ns ⟨⟨ascii "c."⟩, ⟨ascii "aa.b."⟩⟩] = .ok () := by
  decide +kernel

/-! ## C66 -/

/-- **C66.** Every verified record is covered by an RRSIG of the stream that names as its signer the owner of a DNSKEY of the stream
(a zone key with the right tag and algorithm) under which it verifies, over exactly the records of the stream with the record's name
and type, each with its RDATA. Missing: signatures over key sets (next theorem); the order of the records, which is not canonical
for some types (C12); TXT records with empty data (C05). -/
theorem C66_signer_partial (h : verifyRRStream dbg p fuel inp = some (.ok v)) (ht : ∀ t, RR.txt t ∈ inp → t.data ≠ [])
    (r : RR) (hr : r ∈ v.verifiedRrs) :
    ∃ sig k order body, RR.rrsig sig ∈ inp ∧ sig.name = r.name ∧ sig.ty = r.ty ∧ RR.dnskey k ∈ inp ∧ k.name = sig.keyName ∧
      Eligible sig k ∧ order.Perm (inp.filter (fun r' => r'.name = r.name ∧ r'.ty = r.ty)) ∧ RecordsBytes sig order body ∧
      CryptoOk p sig.alg k.pubkey (signedHeader sig ++ body) sig.signature := by
  obtain ⟨z, ksig, sig, _, _, ⟨hs1, hs2⟩, hin, hn, hty⟩ := C21_chain_of_trust h r hr
  obtain ⟨hs3, rfl, _⟩ := mem_sigsBy.mp hs1
  obtain ⟨_, k, msg, ⟨pre, post, e2, he, _⟩, hd, hc⟩ := (verifyRrsig_ok_iff _ _ _ _).mp hs2
  have hk : k ∈ keysAt inp sig.keyName := by rw [e2]; simp
  obtain ⟨hk1, hk2⟩ := mem_keysAt.mp hk
  obtain ⟨order, body, ho, hb, rfl⟩ := signedData_bytes hd (fun t hm => ht t (mem_rrset.mp hm).1)
  rw [hn, hty]
  exact ⟨sig, k, order, body, hs3, rfl, rfl, hk1, hk2, he, ho, hb, hc⟩

example : verifyRRStream true wPlatform 5 wStream = some (.ok ⟨[wA "a.c."], 1000000000, 2000000000, 3600⟩) ∧
    ∀ t, RR.txt t ∈ wStream → t.data ≠ [] := by
  refine ⟨wStream_ok true, fun t ht => ?_⟩
  have : ∀ r ∈ wStream, r.ty ≠ 16 := by decide +kernel
  exact absurd rfl (this _ ht)

/-- The keys of the root, signed in the name of `x.`. -/
def foreignSigner : List RR := [wKey ".", wSig "." 48 0 "x."] ++ wDelegation "." "c." 1 ++ [wA "a.c.", wSig "a.c." 1 2 "c."]

/-- **C66 fails.** An RRSIG over a key set that names another zone as its signer is accepted (RFC 4035 5.3.1: "The RRSIG RR's Signer's
Name field MUST be the name of the zone that contains the RRset"): here the root's keys, in the name of `x.`. -/
theorem C66_fails_foreign_signer :
    verifyRRStream true wPlatform 5 foreignSigner = some (.ok ⟨[wA "a.c."], 1000000000, 2000000000, 3600⟩) ∧
    (∀ s, RR.rrsig s ∈ foreignSigner → s.name = ⟨ascii "."⟩ → s.keyName = ⟨ascii "x."⟩) := by
  refine ⟨by decide +kernel, ?_⟩
  intro s hs
  simp only [foreignSigner, wDelegation, wZone, wSig, wSigWith, wKey, wDs, wA, List.mem_append, List.mem_cons, List.not_mem_nil,
    or_false, RR.rrsig.injEq, reduceCtorEq, false_or, or_false] at hs
  rcases hs with (rfl | rfl | rfl) | rfl
  · intro _; rfl
  all_goals (intro h; exact absurd h (by decide))

end Dnssec.Props
