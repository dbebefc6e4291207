import Verif.Proofs.Wire

/-! # The orders on records -/

namespace Dnssec

open Spec

theorem cmpBytes_lt_iff : ∀ {a b : Bytes}, cmpBytes a b = .lt ↔ OctetLt a b
  | [], [] => by
    simp only [cmpBytes_nil_nil, reduceCtorEq, false_iff]; intro h; cases h
  | [], b :: bs => by simp only [cmpBytes_nil_cons, true_iff]; exact .nil b bs
  | a :: as, [] => by
    simp only [cmpBytes_cons_nil, reduceCtorEq, false_iff]; intro h; cases h
  | a :: as, b :: bs => by
    rw [cmpBytes_cons, compare_u8]
    rcases Nat.lt_trichotomy a.toNat b.toNat with h | h | h
    · rw [Nat.compare_eq_lt.mpr h]
      exact ⟨fun _ => .head a b as bs h, fun _ => rfl⟩
    · rw [Nat.compare_eq_eq.mpr h]
      obtain rfl : a = b := UInt8.toNat_inj.mp h
      simp only [Ordering.eq_then, cmpBytes_lt_iff (a := as) (b := bs)]
      constructor
      · exact fun h => .tail a as bs h
      · intro h
        cases h with
        | head _ _ _ _ h => omega
        | tail _ _ _ h => exact h
    · rw [Nat.compare_eq_gt.mpr h]
      simp only [Ordering.gt_then, reduceCtorEq, false_iff]
      intro h
      cases h <;> omega

/-- The fields of a record as byte strings, in the order in which they are compared. -/
def orderKey (txt : Bytes → Bytes) (rr : RR) : List Bytes :=
  [UInt8.ofNat rr.idx] :: rr.name.bytes :: match rr with
  | .a r => [r.address.1]
  | .aaaa r => [r.address.1]
  | .ns r => [r.nameServer.bytes]
  | .txt r => [txt r.data]
  | .tlsa r => [[r.certUsage], [r.selector], [r.dataTy], r.data]
  | .cname r => [r.canonicalName.bytes]
  | .dname r => [r.delegationName.bytes]
  | .dnskey r => [be16 r.flags, [r.protocol], [r.alg], r.pubkey]
  | .ds r => [be16 r.keyTag, [r.alg], [r.digestType], r.digest]
  | .rrsig r => [be16 r.ty, [r.alg], [r.labels], be32 r.origTtl, be32 r.expiration, be32 r.inception, be16 r.keyTag,
      r.keyName.bytes, r.signature]
  | .nsec r => [r.nextName.bytes, r.types.bytes.1]
  | .nsec3 r => [[r.hashAlgo], [r.flags], be16 r.hashIterations, r.salt, r.nextNameHash, r.types.bytes.1]

abbrev cmpKeys : List Bytes → List Bytes → Ordering := List.compareLex cmpBytes

instance : Std.TransCmp cmpBytes := inferInstanceAs (Std.TransCmp (List.compareLex compare))
instance : Std.LawfulEqCmp cmpBytes := inferInstanceAs (Std.LawfulEqCmp (List.compareLex compare))
instance : Std.OrientedCmp cmpBytes := inferInstanceAs (Std.OrientedCmp (List.compareLex compare))

theorem idx_lt (rr : RR) : rr.idx < 12 := by cases rr <;> simp [RR.idx]

theorem cmpBytes_idx (x y : RR) : cmpBytes [UInt8.ofNat x.idx] [UInt8.ofNat y.idx] = compare x.idx y.idx := by
  have hx := idx_lt x
  have hy := idx_lt y
  rw [cmpBytes_singleton, compare_u8, UInt8.toNat_ofNat', UInt8.toNat_ofNat', Nat.mod_eq_of_lt (by omega),
    Nat.mod_eq_of_lt (by omega)]

theorem cmpKeys_cons (a b : Bytes) (as bs : List Bytes) : cmpKeys (a :: as) (b :: bs) = (cmpBytes a b).then (cmpKeys as bs) :=
  List.compareLex_cons_cons ..

theorem cmpKeys_nil : cmpKeys [] [] = .eq := rfl

theorem cmpKeys_idx_ne {txt : Bytes → Bytes} {x y : RR} (h : x.idx ≠ y.idx) :
    cmpKeys (orderKey txt x) (orderKey txt y) = compare x.idx y.idx := by
  unfold orderKey
  rw [cmpKeys_cons, cmpBytes_idx]
  cases hc : compare x.idx y.idx with
  | lt => rfl
  | gt => rfl
  | eq => exact absurd (Nat.compare_eq_eq.mp hc) h

theorem partialCmp_eq_key (x y : RR) : x.partialCmp y = cmpKeys (orderKey txtV x) (orderKey txtV y) := by
  by_cases h : x.idx = y.idx
  · cases x <;> cases y <;> (first | (simp [RR.idx] at h; done) | skip)
    all_goals
      simp only [orderKey, cmpKeys_cons, cmpKeys_nil, RR.partialCmp, RR.name, RR.idx, Txt.partialCmp_eq,
        A.cmp, AAAA.cmp, NS.cmp, TLSA.cmp, CName.cmp, DName.cmp, DnsKey.cmp, DS.cmp, RRSig.cmp, NSec.cmp, NSec3.cmp,
        NSecTypeMask.cmp, Name.cmp, cmpBytes_be16, cmpBytes_be32, cmpBytes_singleton, compare_u8_self,
        Ordering.eq_then, Ordering.then_eq]
  · rw [cmpKeys_idx_ne h]
    cases x <;> cases y <;> (first | rfl | (exact absurd rfl h))

theorem cmp_eq_key (x y : RR) : x.cmp y = cmpKeys (orderKey id x) (orderKey id y) := by
  by_cases h : x.idx = y.idx
  · cases x <;> cases y <;> (first | (simp [RR.idx] at h; done) | skip)
    all_goals
      simp only [orderKey, cmpKeys_cons, cmpKeys_nil, RR.partialCmp, RR.cmp, RR.name, RR.idx, Txt.cmp,
        A.cmp, AAAA.cmp, NS.cmp, TLSA.cmp, CName.cmp, DName.cmp, DnsKey.cmp, DS.cmp, RRSig.cmp, NSec.cmp, NSec3.cmp,
        NSecTypeMask.cmp, Name.cmp, cmpBytes_be16, cmpBytes_be32, cmpBytes_singleton, compare_u8_self,
        Ordering.eq_then, Ordering.then_eq, id]
  · rw [cmpKeys_idx_ne h]
    cases x <;> cases y <;> (first | rfl | (exact absurd rfl h))

theorem orderKey_injective {txt : Bytes → Bytes} (ht : ∀ a b, txt a = txt b → a = b) {x y : RR}
    (h : orderKey txt x = orderKey txt y) : x = y := by
  have hi : x.idx = y.idx := by
    simp only [orderKey, List.cons.injEq, and_true] at h
    have := congrArg UInt8.toNat h.1
    have hx := idx_lt x
    have hy := idx_lt y
    rw [UInt8.toNat_ofNat', UInt8.toNat_ofNat', Nat.mod_eq_of_lt (by omega), Nat.mod_eq_of_lt (by omega)] at this
    exact this
  have hn : ∀ a b : Name, a.bytes = b.bytes → a = b := by rintro ⟨a⟩ ⟨b⟩ h; simpa using h
  have hm : ∀ a b : NSecTypeMask, a.bytes.1 = b.bytes.1 → a = b := by
    rintro ⟨⟨a, _⟩⟩ ⟨⟨b, _⟩⟩ h; simpa using h
  cases x <;> cases y <;> (first | (simp [RR.idx] at hi; done) | skip)
  all_goals
    rename_i r s
    cases r; cases s
    simp only [orderKey, RR.name, List.cons.injEq, and_true] at h
    simp only [RR.a.injEq, A.mk.injEq, RR.aaaa.injEq, AAAA.mk.injEq, RR.ns.injEq, NS.mk.injEq, RR.txt.injEq, Txt.mk.injEq,
      RR.tlsa.injEq, TLSA.mk.injEq, RR.cname.injEq, CName.mk.injEq, RR.dname.injEq, DName.mk.injEq, RR.dnskey.injEq,
      DnsKey.mk.injEq, RR.ds.injEq, DS.mk.injEq, RR.rrsig.injEq, RRSig.mk.injEq, RR.nsec.injEq, NSec.mk.injEq,
      RR.nsec3.injEq, NSec3.mk.injEq]
    obtain ⟨_, h1, h⟩ := h
    refine ⟨hn _ _ h1, ?_⟩
  · exact Subtype.ext h
  · exact Subtype.ext h
  · exact hn _ _ h
  · exact ht _ _ h
  · exact h
  · exact hn _ _ h
  · exact hn _ _ h
  · exact ⟨be16_inj h.1, h.2⟩
  · exact ⟨be16_inj h.1, h.2⟩
  · obtain ⟨a, b, c, d, e, f, g, i, j⟩ := h
    exact ⟨be16_inj a, b, c, be32_inj d, be32_inj e, be32_inj f, be16_inj g, hn _ _ i, j⟩
  · exact ⟨hn _ _ h.1, hm _ _ h.2⟩
  · obtain ⟨a, b, c, d, e, f⟩ := h
    exact ⟨a, b, be16_inj c, d, e, hm _ _ f⟩

theorem partialCmp_swap (x y : RR) : y.partialCmp x = (x.partialCmp y).swap := by
  rw [partialCmp_eq_key, partialCmp_eq_key]; exact Std.OrientedCmp.eq_swap

theorem partialCmp_eq_iff (x y : RR) : x.partialCmp y = .eq ↔ x = y := by
  rw [partialCmp_eq_key]
  constructor
  · intro h; exact orderKey_injective (fun a b => txtV_injective) (Std.LawfulEqCmp.compare_eq_iff_eq.mp h)
  · rintro rfl; exact Std.LawfulEqCmp.compare_eq_iff_eq.mpr rfl

theorem partialCmp_trans {x y z : RR} (h1 : x.partialCmp y ≠ .gt) (h2 : y.partialCmp z ≠ .gt) : x.partialCmp z ≠ .gt := by
  rw [partialCmp_eq_key] at *
  exact Ordering.isLE_iff_ne_gt.mp
    (Std.TransCmp.isLE_trans (Ordering.isLE_iff_ne_gt.mpr h1) (Ordering.isLE_iff_ne_gt.mpr h2))

theorem cmp_swap (x y : RR) : y.cmp x = (x.cmp y).swap := by
  rw [cmp_eq_key, cmp_eq_key]; exact Std.OrientedCmp.eq_swap

theorem cmp_eq_iff (x y : RR) : x.cmp y = .eq ↔ x = y := by
  rw [cmp_eq_key]
  constructor
  · intro h; exact orderKey_injective (fun a b h => h) (Std.LawfulEqCmp.compare_eq_iff_eq.mp h)
  · rintro rfl; exact Std.LawfulEqCmp.compare_eq_iff_eq.mpr rfl

theorem cmp_trans {x y z : RR} (h1 : x.cmp y ≠ .gt) (h2 : y.cmp z ≠ .gt) : x.cmp z ≠ .gt := by
  rw [cmp_eq_key] at *
  exact Ordering.isLE_iff_ne_gt.mp
    (Std.TransCmp.isLE_trans (Ordering.isLE_iff_ne_gt.mpr h1) (Ordering.isLE_iff_ne_gt.mpr h2))

/-! ### Canonical RDATA order -/

/-- Types whose RDATA has no domain name and no inner length. -/
def plainType : RR → Bool
  | .a _ | .aaaa _ | .txt _ | .tlsa _ | .dnskey _ | .ds _ => true
  | _ => false

theorem rdata_txt_nil (n : Name) : rdata (.txt ⟨n, []⟩) = [0] := by
  show charStrings (pieces255 []) = [0]; decide

theorem cmp_rdata_txt (a b : Txt) : cmpBytes (rdata (.txt a)) (rdata (.txt b)) = cmpBytes (txtV a.data) (txtV b.data) := by
  obtain ⟨n, a⟩ := a
  obtain ⟨m, b⟩ := b
  have hpos : ∀ (n : Name) (d : Bytes), d ≠ [] → ∃ c t, rdata (.txt ⟨n, d⟩) = c :: t ∧ txtV d = c :: t ∧ 0 < c.toNat := by
    intro n d hd
    obtain ⟨t, ht⟩ := txtV_cons hd
    refine ⟨_, t, by rw [rdata_txt_nonempty _ hd, ht], ht, ?_⟩
    have := List.length_pos_iff.mpr hd
    rw [UInt8.toNat_ofNat']; omega
  by_cases ha : a = []
  · subst ha
    by_cases hb : b = []
    · subst hb; rw [rdata_txt_nil, rdata_txt_nil, txtV_nil]; rfl
    · obtain ⟨c, t, h1, h2, h3⟩ := hpos m b hb
      rw [h1, h2, rdata_txt_nil, txtV_nil, cmpBytes_cons, compare_u8, UInt8.toNat_zero, Nat.compare_eq_lt.mpr h3]; rfl
  · obtain ⟨c, t, h1, h2, h3⟩ := hpos n a ha
    by_cases hb : b = []
    · subst hb
      rw [h1, h2, rdata_txt_nil, txtV_nil, cmpBytes_cons, compare_u8, UInt8.toNat_zero, Nat.compare_eq_gt.mpr h3]; rfl
    · rw [rdata_txt_nonempty _ ha, rdata_txt_nonempty _ hb]

theorem idx_of_ty {x y : RR} (h : x.ty = y.ty) : x.idx = y.idx := by
  have key : ∀ z : RR, z.idx = (([1, 28, 2, 16, 52, 5, 39, 48, 43, 46, 47, 50] : List UInt16).idxOf z.ty) := by
    intro z; cases z <;> rfl
  rw [key, key, h]

theorem partialCmp_rdata (x y : RR) (ht : x.ty = y.ty) (hn : x.name = y.name) (hp : plainType x = true) :
    x.partialCmp y = cmpBytes (rdata x) (rdata y) := by
  have hnn : ∀ n : Name, n.cmp n = .eq := fun n => cmpBytes_eq_iff.mpr rfl
  have hi := idx_of_ty ht
  cases x <;> first | (simp [plainType] at hp; done) | skip
  all_goals cases y <;> first | (simp [RR.idx] at hi; done) | skip
  all_goals
    rename_i r s
    have hn : r.name = s.name := hn
    simp only [RR.partialCmp, Txt.partialCmp_eq, A.cmp, AAAA.cmp, TLSA.cmp, DnsKey.cmp, DS.cmp, hn, hnn, Ordering.eq_then]
  · rw [rdata_a, rdata_a]
  · rw [rdata_aaaa, rdata_aaaa]
  · exact (cmp_rdata_txt r s).symm
  · simp only [rdata_tlsa, cmpBytes_cons]
  · rw [rdata_dnskey, rdata_dnskey, cmpBytes_append (by simp), cmpBytes_be16, cmpBytes_cons, cmpBytes_cons]
  · rw [rdata_ds, rdata_ds, cmpBytes_append (by simp), cmpBytes_be16, cmpBytes_cons, cmpBytes_cons]

/-- Names with labels of the same lengths compare alike as texts and on the wire. -/
theorem cmpBytes_same_shape : ∀ (ls ms : List Bytes), ls.map List.length = ms.map List.length →
    cmpBytes (text ls) (text ms) = cmpBytes (wire ls) (wire ms) := by
  have key : ∀ (ls ms : List Bytes), ls.map List.length = ms.map List.length →
      cmpBytes (ls.map (fun l => l ++ [46])).flatten (ms.map (fun l => l ++ [46])).flatten =
      cmpBytes ((ls.map (fun l => UInt8.ofNat l.length :: l)).flatten ++ [0]) ((ms.map (fun l => UInt8.ofNat l.length :: l)).flatten ++ [0]) := by
    intro ls
    induction ls with
    | nil => intro ms h; cases ms with
      | nil => rfl
      | cons => simp at h
    | cons l ls ih =>
      intro ms h
      cases ms with
      | nil => simp at h
      | cons m ms =>
        simp only [List.map_cons, List.cons.injEq] at h
        simp only [List.map_cons, List.flatten_cons, List.append_assoc, List.cons_append, List.nil_append, h.1, cmpBytes_cons]
        rw [cmpBytes_append h.1, cmpBytes_append h.1, cmpBytes_cons, ih ms h.2]
        simp
  intro ls ms h
  unfold text wire
  by_cases e : ls = []
  · subst e
    have : ms = [] := by simpa using h.symm
    subst this; rfl
  · have e' : ms ≠ [] := by rintro rfl; exact e (by simpa using h)
    rw [if_neg e, if_neg e']
    exact key ls ms h
end Dnssec
