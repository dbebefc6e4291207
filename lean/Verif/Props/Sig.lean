import Verif.Props.Order
import Verif.Proofs.Sig
import Verif.Proofs.Example
import Verif.Proofs.Decide

/-! # C19, C20, C54: checking one signature -/

namespace Dnssec.Props

open Dnssec Spec

/-! ## C19 -/

/-- **C19.** The order in which the records of an RRset are presented does not matter. -/
theorem C19_order_of_records (p : Platform) (sig : RRSig) (keys : List DnsKey) (r1 r2 : List RR) (h : r1.Perm r2) :
    verifyRrsig p sig keys r1 = verifyRrsig p sig keys r2 := verifyRrsig_perm p sig keys h

/-- Two orders of a set of addresses; only the second is sorted. -/
example : [RR.a ⟨⟨ascii "a."⟩, ⟨[2, 0, 0, 1], rfl⟩⟩, .a ⟨⟨ascii "a."⟩, ⟨[1, 0, 0, 2], rfl⟩⟩].Perm
      [.a ⟨⟨ascii "a."⟩, ⟨[1, 0, 0, 2], rfl⟩⟩, .a ⟨⟨ascii "a."⟩, ⟨[2, 0, 0, 1], rfl⟩⟩] ∧
    ¬ [RR.a ⟨⟨ascii "a."⟩, ⟨[2, 0, 0, 1], rfl⟩⟩, .a ⟨⟨ascii "a."⟩, ⟨[1, 0, 0, 2], rfl⟩⟩].Pairwise (fun a b => a.partialCmp b ≠ .gt) ∧
    [RR.a ⟨⟨ascii "a."⟩, ⟨[1, 0, 0, 2], rfl⟩⟩, .a ⟨⟨ascii "a."⟩, ⟨[2, 0, 0, 1], rfl⟩⟩].Pairwise (fun a b => a.partialCmp b ≠ .gt) := by
  refine ⟨.swap _ _ _, by decide, by decide⟩

/-- **C19.** Nor does the sorting algorithm: the message signed is determined by the set of records, whatever the
permutation `sort_unstable` chooses among sorted ones. -/
theorem C19_sort_unique (l m : List RR) (h : l.Perm m) (hl : l.Pairwise (fun a b => a.partialCmp b ≠ .gt))
    (hm : m.Pairwise (fun a b => a.partialCmp b ≠ .gt)) : l = m := sorted_unique h hl hm

/-! ## C20 -/

/-- A zone key. -/
def exKey : DnsKey := ⟨⟨ascii "c."⟩, 256, 3, 8, [1, 3, 7, 9]⟩

/-- Another key with the same key tag, algorithm and protocol that is not a zone key. -/
def exBadKey : DnsKey := ⟨⟨ascii "c."⟩, 0, 3, 8, [2, 3, 7, 9]⟩

/-- A signature over an address record, made for the wildcard `*.c.`. -/
def exRRSig : RRSig := ⟨⟨ascii "a.b.c."⟩, 1, 8, 1, 3600, 2000000000, 1000000000, exKey.computeKeyTag, ⟨ascii "c."⟩, [42]⟩

/-- The record it covers. -/
def exA : RR := .a ⟨⟨ascii "a.b.c."⟩, ⟨[1, 2, 3, 4], rfl⟩⟩

/-- The bytes that are signed. -/
def exMessage : Bytes :=
  [0, 1, 8, 1, 0, 0, 14, 16, 119, 53, 148, 0, 59, 154, 202, 0] ++ be16 exKey.computeKeyTag ++ [1, 99, 0] ++
  [1, 42, 1, 99, 0, 0, 1, 0, 1, 0, 0, 14, 16, 0, 4, 1, 2, 3, 4]

/-- A scheme accepting one signature for one message by one key. -/
def exPlatform : Platform :=
  testPlatform id id (fun n e msg sig => decide (n = [7, 9] ∧ e = [3] ∧ msg = exMessage ∧ sig = [42]))

/-- **C20, exact.** A signature over a proper RRset is accepted exactly when it is good. Missing: other RRsets, for which it is false
(`C20_fails_for_ns`, `C20_fails_for_empty_txt`). -/
theorem C20_accept_iff_partial (p : Platform) (sig : RRSig) (keys : List DnsKey) (records : List RR)
    (hk : ∃ ls, HasLabels sig.keyName ls) (hr : Proper records) :
    verifyRrsig p sig keys records = .ok () ↔ GoodSig p sig keys records := by
  rw [verifyRrsig_ok_iff]
  unfold GoodSigM GoodSig
  constructor
  · rintro ⟨ht, h⟩; simp only [signedData_iff hk hr ht] at h; exact ⟨ht, h⟩
  · rintro ⟨ht, h⟩; simp only [← signedData_iff hk hr ht] at h; exact ⟨ht, h⟩

/-- **C20.** An unsupported algorithm is reported exactly when everything but the cryptographic check is in order and the
algorithm is not one of 8, 10, 13, 14, 15. -/
theorem C20_unsupported_iff_partial (p : Platform) (sig : RRSig) (keys : List DnsKey) (records : List RR)
    (hk : ∃ ls, HasLabels sig.keyName ls) (hr : Proper records) :
    verifyRrsig p sig keys records = .err .unsupported ↔
      (∀ r ∈ records, r.ty = sig.ty) ∧ (∃ k ∈ keys, Eligible sig k) ∧ (∃ msg, SignedMessage sig records msg) ∧
      ¬ Supported sig.alg := by
  rw [verifyRrsig_unsupported_iff]
  constructor
  · rintro ⟨ht, h⟩; simp only [signedData_iff hk hr ht] at h; exact ⟨ht, h⟩
  · rintro ⟨ht, h⟩; simp only [← signedData_iff hk hr ht] at h; exact ⟨ht, h⟩

/-- A signature over the name servers of `c.`. -/
def exNsSig : RRSig := ⟨⟨ascii "c."⟩, 2, 8, 1, 3600, 2000000000, 1000000000, exKey.computeKeyTag, ⟨ascii "c."⟩, [42]⟩

/-- The RDATA of the RRSIG without the signature. -/
def exNsPrefix : Bytes := [0, 2, 8, 1, 0, 0, 14, 16, 119, 53, 148, 0, 59, 154, 202, 0] ++ be16 exKey.computeKeyTag ++ [1, 99, 0]

/-- The name server records `c. NS b.` and `c. NS aa.`, in canonical order. -/
def exNs : List RR := [.ns ⟨⟨ascii "c."⟩, ⟨ascii "b."⟩⟩, .ns ⟨⟨ascii "c."⟩, ⟨ascii "aa."⟩⟩]

/-- The canonical form of these records, in canonical order. -/
def exNsBody : Bytes :=
  [1, 99, 0, 0, 2, 0, 1, 0, 0, 14, 16, 0, 3, 1, 98, 0] ++ [1, 99, 0, 0, 2, 0, 1, 0, 0, 14, 16, 0, 4, 2, 97, 97, 0]

/-- A scheme accepting one signature for one message by one key. -/
def exPlatformFor (m : Bytes) : Platform :=
  testPlatform id id (fun n e msg sig => decide (n = [7, 9] ∧ e = [3] ∧ msg = m ∧ sig = [42]))

/-- **C20 fails.** A good signature over a set of two NS records with sensible names is rejected: the records are not put in
canonical order. -/
theorem C20_fails_for_ns : GoodSig (exPlatformFor (exNsPrefix ++ exNsBody)) exNsSig [exKey] exNs ∧
    verifyRrsig (exPlatformFor (exNsPrefix ++ exNsBody)) exNsSig [exKey] exNs = .err .invalid := by
  refine ⟨⟨by decide, exKey, exNsPrefix ++ exNsBody, ⟨[], [], rfl, ⟨by decide +kernel, rfl, by decide, rfl⟩, by simp⟩, ?_, ?_⟩, by decide +kernel⟩
  · refine ⟨[ascii "c"], exNs, exNsBody, by decide, List.Perm.refl _, ?_, ?_, by decide⟩
    · simp only [Sorted, exNs, List.pairwise_cons, List.mem_singleton, forall_eq, List.not_mem_nil, false_implies, implies_true,
        List.Pairwise.nil, and_true, ← cmpBytes_lt_iff]
      decide
    · exact .cons _ _ [ascii "c"] _ _ (by decide) (.exact (by decide)) (.cons _ _ [ascii "c"] _ _ (by decide) (.exact (by decide)) .nil)
  · refine .rsaSha256 [7, 9] [3] rfl (by decide) ?_ (by decide) (by decide)
    exact .short 1 [3] [7, 9] (by decide) (by decide)

/-- **C20 for name servers.** Signatures over the NS records of a zone whose name servers have labels of the same lengths, like those of
most large zones, are accepted exactly when they are good. -/
theorem C20_same_shape_partial (p : Platform) (sig : RRSig) (keys : List DnsKey) (owner : Name) (servers : List Name) (lengths : List Nat)
    (hk : ∃ ls, HasLabels sig.keyName ls) (ho : ∃ ls, HasLabels owner ls)
    (hs : ∀ s ∈ servers, ∃ ls, HasLabels s ls ∧ ls.map List.length = lengths) :
    verifyRrsig p sig keys (servers.map (fun s => .ns ⟨owner, s⟩)) = .ok () ↔
      GoodSig p sig keys (servers.map (fun s => .ns ⟨owner, s⟩)) := by
  refine C20_accept_iff_partial p sig keys _ hk ⟨?_, ?_, ?_, ?_⟩
  · intro r hr
    obtain ⟨s, _, rfl⟩ := List.mem_map.mp hr
    exact ho
  · intro r hr r' hr'
    obtain ⟨s, _, rfl⟩ := List.mem_map.mp hr
    obtain ⟨s', _, rfl⟩ := List.mem_map.mp hr'
    rfl
  · intro t ht
    obtain ⟨s, _, h⟩ := List.mem_map.mp ht
    cases h
  · intro r hr r' hr' _
    obtain ⟨s, h1, rfl⟩ := List.mem_map.mp hr
    obtain ⟨s', h2, rfl⟩ := List.mem_map.mp hr'
    obtain ⟨ls, g1, e1⟩ := hs s h1
    obtain ⟨ms, g2, e2⟩ := hs s' h2
    refine .inr ⟨_, _, rfl, rfl, ?_⟩
    rw [rdata_ns, rdata_ns, g1.writeName, g2.writeName, g1.bytes, g2.bytes, ← cmpBytes_lt_iff, ← cmpBytes_lt_iff,
      cmpBytes_same_shape ls ms (e1.trans e2.symm)]

/-- Two such servers, presented out of order, and a signature that is accepted. -/
example : (∀ s ∈ [(⟨ascii "b.ns."⟩ : Name), ⟨ascii "a.ns."⟩], ∃ ls, HasLabels s ls ∧ ls.map List.length = [1, 2]) ∧
    verifyRrsig (exPlatformFor (exNsPrefix ++
      [1, 99, 0, 0, 2, 0, 1, 0, 0, 14, 16, 0, 6, 1, 97, 2, 110, 115, 0] ++ [1, 99, 0, 0, 2, 0, 1, 0, 0, 14, 16, 0, 6, 1, 98, 2, 110, 115, 0]))
      exNsSig [exKey] ([(⟨ascii "b.ns."⟩ : Name), ⟨ascii "a.ns."⟩].map (fun s => .ns ⟨⟨ascii "c."⟩, s⟩)) = .ok () := by
  refine ⟨?_, by decide +kernel⟩
  intro s hs
  simp only [List.mem_cons, List.not_mem_nil, or_false] at hs
  rcases hs with rfl | rfl
  · exact ⟨[ascii "b", ascii "ns"], by decide, by decide⟩
  · exact ⟨[ascii "a", ascii "ns"], by decide, by decide⟩

/-- The TXT record `c. TXT ""`. -/
def exEmptyTxt : RR := .txt ⟨⟨ascii "c."⟩, []⟩

/-- **C20 fails.** A good signature over a TXT record holding one empty string is rejected (see C05). -/
theorem C20_fails_for_empty_txt : ∃ p sig, GoodSig p sig [exKey] [exEmptyTxt] ∧
    verifyRrsig p sig [exKey] [exEmptyTxt] = .err .invalid := by
  refine ⟨exPlatformFor ([0, 16] ++ exNsPrefix.drop 2 ++ [1, 99, 0, 0, 16, 0, 1, 0, 0, 14, 16, 0, 1, 0]), { exNsSig with ty := 16 },
    ⟨by decide, exKey, [0, 16] ++ exNsPrefix.drop 2 ++ [1, 99, 0, 0, 16, 0, 1, 0, 0, 14, 16, 0, 1, 0], ⟨[], [], rfl, ⟨by decide +kernel, rfl, by decide, rfl⟩, by simp⟩, ?_, ?_⟩, by decide +kernel⟩
  · exact ⟨[ascii "c"], [exEmptyTxt], _, by decide, List.Perm.refl _, List.pairwise_singleton _ _,
      .cons _ _ [ascii "c"] _ _ (by decide) (.exact (by decide)) .nil, by decide⟩
  · refine .rsaSha256 [7, 9] [3] rfl (by decide) ?_ (by decide) (by decide)
    exact .short 1 [3] [7, 9] (by decide) (by decide)

/-- **C20.** Never success with an unsupported algorithm. No assumption on names. -/
theorem C20_unsupported_never_ok (p : Platform) (sig : RRSig) (keys : List DnsKey) (records : List RR)
    (h : ¬ Supported sig.alg) : verifyRrsig p sig keys records ≠ .ok () := by
  intro h1
  obtain ⟨_, k, msg, _, _, h2⟩ := (verifyRrsig_ok_iff p sig keys records).mp h1
  apply h
  unfold Supported
  rcases h2 with ⟨_, _, h', _⟩ | ⟨_, _, h', _⟩ | ⟨h', _⟩ | ⟨h', _⟩ | ⟨h', _⟩ <;> simp [h']

/-- **C20.** Only keys with matching key tag and algorithm, protocol 3 and the zone flag are ever used: any other key can
be added or removed anywhere in the key set without changing anything. -/
theorem C20_other_keys_ignored (p : Platform) (sig : RRSig) (before after : List DnsKey) (k : DnsKey) (records : List RR)
    (h : ¬ Eligible sig k) :
    verifyRrsig p sig (before ++ k :: after) records = verifyRrsig p sig (before ++ after) records := by
  have key : verifyKeysLoop p sig records (before ++ k :: after) = verifyKeysLoop p sig records (before ++ after) := by
    induction before with
    | nil =>
      rw [List.nil_append, List.nil_append, verifyKeysLoop, if_neg]
      exact fun h1 => h ((keyEligible_iff sig k).mp h1)
    | cons k' ks ih => rw [List.cons_append, List.cons_append, verifyKeysLoop, verifyKeysLoop, ih]
  unfold verifyRrsig
  rw [key]

/-- The check never panics, whatever the names. -/
theorem C20_never_panics (p : Platform) (sig : RRSig) (keys : List DnsKey) (records : List RR) :
    verifyRrsig p sig keys records ≠ .panic := verifyRrsig_no_panic p sig keys records

/-- A wildcard signature is accepted, skipping the key that is not a zone key; with another message (the record's address
changed), with only the bad key, or with a record of another type, it is not. -/
example : verifyRrsig exPlatform exRRSig [exBadKey, exKey] [exA] = .ok () ∧
    verifyRrsig exPlatform exRRSig [exKey] [.a ⟨⟨ascii "a.b.c."⟩, ⟨[1, 2, 3, 5], rfl⟩⟩] = .err .invalid ∧
    verifyRrsig exPlatform exRRSig [exBadKey] [exA] = .err .invalid ∧
    verifyRrsig exPlatform { exRRSig with alg := 5, keyTag := ({ exKey with alg := 5 } : DnsKey).computeKeyTag }
      [{ exKey with alg := 5 }] [exA] = .err .unsupported ∧
    exBadKey.computeKeyTag = exKey.computeKeyTag ∧
    HasLabels exRRSig.keyName [ascii "c"] ∧ HasLabels exA.name [ascii "a", ascii "b", ascii "c"] := by
  decide +kernel

/-! ## C54 -/

/-- **C54.** If two RRSIGs and non-wildcard RRsets have the same signed bytes, the RRsets are the same (as multisets), and
so are all signed fields of the RRSIG: type, algorithm, label count, original TTL, times, key tag and signer. -/
theorem C54_signed_bytes_determine_rrset (s1 s2 : RRSig) (r1 r2 : List RR)
    (he1 : ∀ r ∈ r1, Encodable r) (he2 : ∀ r ∈ r2, Encodable r)
    (hx1 : ∀ r ∈ r1, ∀ ls, HasLabels r.name ls → ls.length = s1.labels.toNat)
    (hx2 : ∀ r ∈ r2, ∀ ls, HasLabels r.name ls → ls.length = s2.labels.toNat)
    (msg : Bytes) (h1 : SignedMessage s1 r1 msg) (h2 : SignedMessage s2 r2 msg) :
    r1.Perm r2 ∧ s1.ty = s2.ty ∧ s1.alg = s2.alg ∧ s1.labels = s2.labels ∧ s1.origTtl = s2.origTtl ∧
      s1.expiration = s2.expiration ∧ s1.inception = s2.inception ∧ s1.keyTag = s2.keyTag ∧ s1.keyName = s2.keyName := signedMessage_injective he1 he2 hx1 hx2 h1 h2

theorem exA_proper : Proper [exA] := by
  refine ⟨?_, ?_, ?_, ?_⟩ <;> simp only [List.mem_singleton]
  · rintro r rfl; exact ⟨[ascii "a", ascii "b", ascii "c"], by decide⟩
  · rintro r rfl r' rfl; rfl
  · simp [exA]
  · rintro r rfl r' rfl h; exact absurd rfl h

/-- The hypotheses are met by the signature above with three labels, which is over one record only. -/
example : ∃ msg, SignedMessage { exRRSig with labels := 3 } [exA] msg ∧ Encodable exA := by
  refine ⟨sigPrefix { exRRSig with labels := 3 } ++ writeRR exA 3600, ?_, ?_⟩
  · rw [← signedData_iff ⟨[ascii "c"], by decide⟩ exA_proper (by decide)]
    decide
  · exact ⟨⟨[ascii "a", ascii "b", ascii "c"], by decide⟩, by simp [exA, rdataNames], by simp [exA], by decide, by simp [exA]⟩

/-- The label count matters: under a wildcard signature the RRset of another name below the wildcard has the same signed
bytes (this is what wildcards are for). -/
example : signedData exRRSig [exA] = signedData exRRSig [.a ⟨⟨ascii "x.c."⟩, ⟨[1, 2, 3, 4], rfl⟩⟩] := by decide

/-- **C12.** The records of a set of one of these types are put in the octet order of their wire RDATA before a signature over them is
checked. Missing: as for `C12_canonical_order_partial`. -/
theorem C12_sorted_partial (records : List RR) (hn : ∀ x ∈ records, ∀ y ∈ records, x.name = y.name ∧ x.ty = y.ty)
    (hty : ∀ x ∈ records, x.ty = 1 ∨ x.ty = 28 ∨ x.ty = 16 ∨ x.ty = 52 ∨ x.ty = 48 ∨ x.ty = 43) :
    (sortRRs records).Perm records ∧ (sortRRs records).Pairwise (fun x y => ¬ OctetLt (rdata y) (rdata x)) := by
  refine ⟨sortRRs_perm records, (sortRRs_sorted records).imp_of_mem ?_⟩
  intro x y hx hy h hlt
  have hx := (sortRRs_perm records).mem_iff.mp hx
  have hy := (sortRRs_perm records).mem_iff.mp hy
  exact h ((C12_canonical_order_partial x y (hn x hx y hy).2 (hn x hx y hy).1 (hty x hx)).2.2.mpr hlt)

/-- Three addresses in the wrong order. -/
example : sortRRs [.a ⟨⟨ascii "x."⟩, ⟨[9, 2, 3, 4], rfl⟩⟩, .a ⟨⟨ascii "x."⟩, ⟨[1, 200, 3, 4], rfl⟩⟩, .a ⟨⟨ascii "x."⟩, ⟨[1, 2, 3, 4], rfl⟩⟩] =
    [.a ⟨⟨ascii "x."⟩, ⟨[1, 2, 3, 4], rfl⟩⟩, .a ⟨⟨ascii "x."⟩, ⟨[1, 200, 3, 4], rfl⟩⟩, .a ⟨⟨ascii "x."⟩, ⟨[9, 2, 3, 4], rfl⟩⟩] := by decide

end Dnssec.Props
