import Verif.Proofs.Decide
import Verif.Proofs.Order

/-! # C11-C13: orders on records -/

namespace Dnssec.Props

open Dnssec Spec

/-! ## C11 -/

/-- **C11.** Comparing two TXT records never indexes out of range (`none` in the model is a slicing panic). -/
theorem C11_never_panics (a b : Txt) : (a.partialCmp? b).isSome := by rw [Txt.partialCmp?_eq]; rfl

/-- **C11.** For TXT records at one name, `<` and `==` as used when sorting for a signature are exactly the octet order and
equality of the wire RDATA. -/
theorem C11_canonical_order (a b : Txt) (h : a.name = b.name) :
    (a.partialCmp b = .lt ↔ OctetLt (rdata (.txt a)) (rdata (.txt b))) ∧
    (a.partialCmp b = .eq ↔ rdata (.txt a) = rdata (.txt b)) ∧
    (a.partialCmp b = .gt ↔ OctetLt (rdata (.txt b)) (rdata (.txt a))) := by
  have hc : a.partialCmp b = cmpBytes (rdata (.txt a)) (rdata (.txt b)) := partialCmp_rdata (.txt a) (.txt b) rfl h rfl
  rw [hc]
  refine ⟨cmpBytes_lt_iff, cmpBytes_eq_iff, ?_⟩
  rw [← cmpBytes_lt_iff, ← cmpBytes_swap]
  cases cmpBytes (rdata (.txt b)) (rdata (.txt a)) <;> simp

/-- `"b"` sorts before `"aa"`, because it is shorter: `01 62 < 02 61 61`. -/
example : (⟨⟨ascii "x."⟩, ascii "b"⟩ : Txt).partialCmp ⟨⟨ascii "x."⟩, ascii "aa"⟩ = .lt ∧
    rdata (.txt ⟨⟨ascii "x."⟩, ascii "b"⟩) = [1, 98] ∧ rdata (.txt ⟨⟨ascii "x."⟩, ascii "aa"⟩) = [2, 97, 97] := by decide

/-! ## C12 -/

/-- **C12.** For records of the same name and type, of the types A, AAAA, TXT, TLSA, DNSKEY and DS, the order used for
signing is the octet order of the wire RDATA.
Missing: NS, CNAME, DNAME, NSEC, NSEC3 (for which it is false, below) and RRSIG (never signed). -/
theorem C12_canonical_order_partial (x y : RR) (ht : x.ty = y.ty) (hn : x.name = y.name)
    (hty : x.ty = 1 ∨ x.ty = 28 ∨ x.ty = 16 ∨ x.ty = 52 ∨ x.ty = 48 ∨ x.ty = 43) :
    (x.partialCmp y = .lt ↔ OctetLt (rdata x) (rdata y)) ∧ (x.partialCmp y = .eq ↔ rdata x = rdata y) ∧
    (x.partialCmp y = .gt ↔ OctetLt (rdata y) (rdata x)) := by
  have hp : plainType x = true := by
    cases x <;> first | rfl | (exfalso; revert hty; simp only [RR.ty]; decide)
  rw [partialCmp_rdata x y ht hn hp]
  refine ⟨cmpBytes_lt_iff, cmpBytes_eq_iff, ?_⟩
  rw [← cmpBytes_lt_iff, ← cmpBytes_swap]
  cases cmpBytes (rdata y) (rdata x) <;> simp

example : (RR.ds ⟨⟨ascii "x."⟩, 7, 8, 2, [1, 2]⟩).partialCmp (.ds ⟨⟨ascii "x."⟩, 7, 8, 2, [1, 3]⟩) = .lt ∧
    (RR.ds ⟨⟨ascii "x."⟩, 7, 8, 2, [1, 2]⟩).ty = 43 ∧ rdata (.ds ⟨⟨ascii "x."⟩, 7, 8, 2, [1, 2]⟩) = [0, 7, 8, 2, 1, 2] := by
  decide

/-- **C12 is false for NS records:** the code sorts the target names as strings, so `aa.` comes before `b.`, while on the
wire `01 62 00` sorts before `02 61 61 00`. -/
theorem C12_fails_for_ns : ∃ x y : NS, x.name = y.name ∧ (RR.ns x).partialCmp (.ns y) = .gt ∧
    OctetLt (rdata (.ns x)) (rdata (.ns y)) :=
  ⟨⟨⟨ascii "x."⟩, ⟨ascii "b."⟩⟩, ⟨⟨ascii "x."⟩, ⟨ascii "aa."⟩⟩, rfl, by decide, cmpBytes_lt_iff.mp (by decide)⟩

/-- **C12 for name servers.** NS records of one owner whose name servers have labels of the same lengths, like those of most large zones, are
put in canonical order. -/
theorem C12_same_shape_partial (x y : NS) (ls ms : List Bytes) (hn : x.name = y.name) (hx : HasLabels x.nameServer ls)
    (hy : HasLabels y.nameServer ms) (hs : ls.map List.length = ms.map List.length) :
    ((RR.ns x).partialCmp (.ns y) = .lt ↔ OctetLt (rdata (.ns x)) (rdata (.ns y))) ∧
    ((RR.ns x).partialCmp (.ns y) = .eq ↔ rdata (.ns x) = rdata (.ns y)) := by
  have : (RR.ns x).partialCmp (.ns y) = cmpBytes (rdata (.ns x)) (rdata (.ns y)) := by
    simp only [RR.partialCmp, NS.cmp, Name.cmp, hn, cmpBytes_eq_iff.mpr, Ordering.eq_then, rdata_ns]
    rw [hx.writeName, hy.writeName, ← cmpBytes_same_shape ls ms hs, hx.bytes, hy.bytes]
  rw [this]
  exact ⟨cmpBytes_lt_iff, cmpBytes_eq_iff⟩

/-- Two such servers. -/
example : HasLabels ⟨ascii "a.ns.x."⟩ [ascii "a", ascii "ns", ascii "x"] ∧ HasLabels ⟨ascii "b.ns.x."⟩ [ascii "b", ascii "ns", ascii "x"] ∧
    (RR.ns ⟨⟨ascii "x."⟩, ⟨ascii "a.ns.x."⟩⟩).partialCmp (.ns ⟨⟨ascii "x."⟩, ⟨ascii "b.ns.x."⟩⟩) = .lt := by
  decide

/-- **C12 is false for CNAME and DNAME**, in the same way. -/
theorem C12_fails_for_cname_dname :
    (∃ x y : CName, x.name = y.name ∧ (RR.cname x).partialCmp (.cname y) = .gt ∧ OctetLt (rdata (.cname x)) (rdata (.cname y))) ∧
    (∃ x y : DName, x.name = y.name ∧ (RR.dname x).partialCmp (.dname y) = .gt ∧ OctetLt (rdata (.dname x)) (rdata (.dname y))) :=
  ⟨⟨⟨⟨ascii "x."⟩, ⟨ascii "b."⟩⟩, ⟨⟨ascii "x."⟩, ⟨ascii "aa."⟩⟩, rfl, by decide, cmpBytes_lt_iff.mp (by decide)⟩,
   ⟨⟨⟨ascii "x."⟩, ⟨ascii "b."⟩⟩, ⟨⟨ascii "x."⟩, ⟨ascii "aa."⟩⟩, rfl, by decide, cmpBytes_lt_iff.mp (by decide)⟩⟩

/-- **C12 is false for NSEC**, in the same way, whatever the type bitmaps. -/
theorem C12_fails_for_nsec (m k : NSecTypeMask) : ∃ x y : NSec, x.name = y.name ∧ x.types = m ∧ y.types = k ∧
    (RR.nsec x).partialCmp (.nsec y) = .gt ∧ OctetLt (rdata (.nsec x)) (rdata (.nsec y)) := by
  refine ⟨⟨⟨ascii "x."⟩, ⟨ascii "b."⟩, m⟩, ⟨⟨ascii "x."⟩, ⟨ascii "aa."⟩, k⟩, rfl, rfl, rfl, ?_, ?_⟩
  · have h1 : (⟨ascii "x."⟩ : Name).cmp ⟨ascii "x."⟩ = .eq := by decide
    have h2 : (⟨ascii "b."⟩ : Name).cmp ⟨ascii "aa."⟩ = .gt := by decide
    simp only [RR.partialCmp, NSec.cmp, h1, h2]; rfl
  · rw [rdata_nsec, rdata_nsec, show writeName (ascii "b.") = [1, 98, 0] by decide,
      show writeName (ascii "aa.") = [2, 97, 97, 0] by decide]
    exact .head 1 2 _ _ (by decide)

/-- **C12 is false for NSEC3:** salts are compared as byte strings, but are preceded by their length on the wire. -/
theorem C12_fails_for_nsec3 (m k : NSecTypeMask) : ∃ x y : NSec3, x.name = y.name ∧ x.types = m ∧ y.types = k ∧
    (RR.nsec3 x).partialCmp (.nsec3 y) = .gt ∧ OctetLt (rdata (.nsec3 x)) (rdata (.nsec3 y)) := by
  refine ⟨⟨⟨ascii "x."⟩, 1, 0, 0, [2], [], m⟩, ⟨⟨ascii "x."⟩, 1, 0, 0, [1, 1], [], k⟩, rfl, rfl, rfl, ?_, ?_⟩
  · have h1 : (⟨ascii "x."⟩ : Name).cmp ⟨ascii "x."⟩ = .eq := by decide
    simp only [RR.partialCmp, NSec3.cmp, h1]; rfl
  · rw [rdata_nsec3, rdata_nsec3]
    dsimp only
    rw [show be16 0 = [0, 0] by decide, show UInt8.ofNat [(2 : UInt8)].length = 1 by decide,
      show UInt8.ofNat [(1 : UInt8), 1].length = 2 by decide]
    exact .tail 1 _ _ (.tail 0 _ _ (.tail 0 _ _ (.tail 0 _ _ (.head 1 2 _ _ (by decide)))))

/-! ## C13 -/

/-- **C13.** Both orders are total orders in which only equal records are equal: the comparison operators
(`PartialOrd`, used for sorting) ... -/
theorem C13_partial_cmp_total_order (x y z : RR) :
    (x.partialCmp y = .eq ↔ x = y) ∧ y.partialCmp x = (x.partialCmp y).swap ∧
    (x.partialCmp y ≠ .gt → y.partialCmp z ≠ .gt → x.partialCmp z ≠ .gt) :=
  ⟨partialCmp_eq_iff x y, partialCmp_swap x y, partialCmp_trans⟩

/-- ... and `Ord`. -/
theorem C13_cmp_total_order (x y z : RR) :
    (x.cmp y = .eq ↔ x = y) ∧ y.cmp x = (x.cmp y).swap ∧ (x.cmp y ≠ .gt → y.cmp z ≠ .gt → x.cmp z ≠ .gt) :=
  ⟨cmp_eq_iff x y, cmp_swap x y, cmp_trans⟩

/-- **C13.** They agree unless both records are TXT records.
Missing: pairs of TXT records, for which it is false (next theorem). -/
theorem C13_orders_agree_partial (x y : RR) (h : ¬ (x.ty = 16 ∧ y.ty = 16)) : x.partialCmp y = x.cmp y := by
  cases x <;> cases y <;> first | rfl | (exfalso; exact h ⟨rfl, rfl⟩)

example : (RR.a ⟨⟨ascii "x."⟩, ⟨[1, 2, 3, 4], rfl⟩⟩).partialCmp (.a ⟨⟨ascii "x."⟩, ⟨[1, 2, 3, 5], rfl⟩⟩) = .lt := by decide

/-- **C13 is false for TXT:** `partial_cmp` says `"b" < "aa"`, `cmp` says `"b" > "aa"`. -/
theorem C13_orders_disagree_on_txt : ∃ x y : Txt, (RR.txt x).partialCmp (.txt y) = .lt ∧ (RR.txt x).cmp (.txt y) = .gt :=
  ⟨⟨⟨ascii "x."⟩, ascii "b"⟩, ⟨⟨ascii "x."⟩, ascii "aa"⟩, by decide, by decide⟩

end Dnssec.Props
