import Verif.Spec.Labels
import Verif.Proofs.Decide
import Verif.Proofs.WireLabels
import Verif.Props.Records

/-! # Property theorems: labels of names on the wire (C92) -/

namespace Dnssec.Props

open Dnssec Spec

/-- **C92.** A name on the wire none of whose labels contains a dot is read with exactly its labels, in lower case, and what follows
it is left; it is rejected exactly if it is too long or has a character that names may not have. Missing: labels with dots
(`C92_fails_for_dot`). -/
theorem C92_labels_partial {msg inp rest : Bytes} {ls : List Bytes} (h : NameAt msg inp ls rest) (hd : NoDots ls) (n : Name) (rest' : Bytes) :
    readName msg inp = .ok (n, rest') ↔ rest' = rest ∧ HasLabels n (lowerLabels ls) := by
  have hdec := LabelsAt.decodes h
  have hne := LabelsAt.nonempty h
  rw [readName_reads]
  constructor
  · rintro ⟨t, a, b, c⟩
    obtain ⟨rfl, rfl⟩ := Decodes_functional a hdec
    rw [orRoot_flatten] at b c
    refine ⟨rfl, ((nameText_labels hne hd).mp b).1, by rw [c, text_lowerLabels], ?_⟩
    rw [c]; simpa using b.short
  · rintro ⟨rfl, a⟩
    refine ⟨_, hdec, ?_, ?_⟩ <;> rw [orRoot_flatten]
    · rw [nameText_labels hne hd]
      refine ⟨a.labels, ?_⟩
      have := a.short
      rw [a.bytes, ← text_lowerLabels] at this
      simpa using this
    · rw [a.bytes, text_lowerLabels]

/-- **C92.** Names on the wire that differ in more than case are read as different names. Missing: as above. -/
theorem C92_different_partial {msg inp rest msg' inp' rest' : Bytes} {ls ls' : List Bytes} (h : NameAt msg inp ls rest)
    (h' : NameAt msg' inp' ls' rest') (hd : NoDots ls) (hd' : NoDots ls') {n : Name} {r r' : Bytes}
    (hr : readName msg inp = .ok (n, r)) (hr' : readName msg' inp' = .ok (n, r')) : lowerLabels ls = lowerLabels ls' :=
  ((C92_labels_partial h hd n r).mp hr).2.unique ((C92_labels_partial h' hd' n r').mp hr').2

/-- **C92.** Whatever is read as a name consists of labels on the wire; unless one of them contains a dot, it is a name in the sense
of RFC 1035, with labels of at most 63 octets. Missing: as above. -/
theorem C92_only_names_partial {msg inp rest : Bytes} {n : Name} (h : readName msg inp = .ok (n, rest)) :
    ∃ ls, LabelsAt 255 msg 255 inp ls rest ∧ (NoDots ls → NameAt msg inp ls rest ∧ HasLabels n (lowerLabels ls)) := by
  obtain ⟨t, a, b, c⟩ := readName_reads.mp h
  obtain ⟨ls, e, rfl⟩ := Decodes.labelsAt a
  refine ⟨ls, e, fun hd => ?_⟩
  rw [orRoot_flatten] at b
  have hl := ((nameText_labels (LabelsAt.nonempty e) hd).mp b).1
  have hn : NameAt msg inp ls rest := LabelsAt.shorter e (fun l h => by
    have := (hl (l.map foldCase) (List.mem_map.mpr ⟨l, h, rfl⟩)).short
    simpa using this)
  exact ⟨hn, ((C92_labels_partial hn hd n rest).mp h).2⟩

/-- **C92, refuted.** The name with the one label `a.b` and the name with the labels `a` and `b` are read as the same name. -/
theorem C92_fails_for_dot : ∃ inp inp' ls ls' n, NameAt [] inp ls [] ∧ NameAt [] inp' ls' [] ∧ lowerLabels ls ≠ lowerLabels ls' ∧
    readName [] inp = .ok (n, []) ∧ readName [] inp' = .ok (n, []) := by
  refine ⟨[3, 97, 46, 98, 0], [1, 97, 1, 98, 0], [ascii "a.b"], [ascii "a", ascii "b"], ⟨ascii "a.b."⟩, ?_, ?_, by decide, by decide +kernel,
    by decide +kernel⟩
  · exact .label 255 3 (ascii "a.b") [0] [] [] (by decide) rfl (by decide) (by decide) (.root 255 [])
  · exact .label 255 1 [97] [1, 98, 0] [[98]] [] (by decide) rfl (by decide) (by decide)
      (.label 255 1 [98] [0] [] [] (by decide) rfl (by decide) (by decide) (.root 255 []))

/-- **C92, refuted.** A length octet of 65 (a reserved label type, RFC 1035 4.1.4) is accepted as the length of a label that contains
a dot. -/
theorem C92_fails_for_reserved_type : ∃ inp n, readName [] inp = .ok (n, []) ∧ ∀ ls rest, ¬ NameAt [] inp ls rest :=
  ⟨65 :: (List.replicate 32 97 ++ 46 :: List.replicate 32 97) ++ [0], ⟨List.replicate 32 97 ++ 46 :: List.replicate 32 97 ++ [46]⟩,
    by decide +kernel, fun _ _ => not_nameAt_long (by decide) (by decide)⟩

/-- A CNAME record of `c.` whose target has the one label `a.b`, on the wire and as it is read. -/
def exDotted : Bytes := [1, 99, 0, 0, 5, 0, 1, 0, 0, 14, 16, 0, 5, 3, 97, 46, 98, 0]

/-- See `exDotted`. -/
def exDottedRead : RR := .cname ⟨⟨ascii "c."⟩, ⟨ascii "a.b."⟩⟩

/-- **C92, refuted for signatures.** The zone's good signature over the published record is rejected. -/
theorem C92_fails_for_signature :
    let message := [0, 5] ++ exNsPrefix.drop 2 ++ exDotted
    let p := exPlatformFor message
    let sig := { exNsSig with ty := 5 }
    parseRRStream true exDotted = .ok [exDottedRead] ∧ CryptoOk p sig.alg exKey.pubkey message sig.signature ∧
      FirstEligible sig [exKey] exKey ∧ verifyRrsig p sig [exKey] [exDottedRead] = .err .invalid := by
  refine ⟨by rfl, ?_, ⟨[], [], rfl, ⟨by decide +kernel, rfl, by decide, rfl⟩, by simp⟩, by decide +kernel⟩
  refine .rsaSha256 [7, 9] [3] rfl (by decide) ?_ (by decide) (by decide)
  exact .short 1 [3] [7, 9] (by decide) (by decide)

/-- The hypotheses are met: a name in capitals whose last label is elsewhere in the message. -/
example : NameAt [9, 1, 67, 0] [2, 65, 98, 192, 1, 7] [ascii "Ab", ascii "C"] [7] ∧ NoDots [ascii "Ab", ascii "C"] ∧
    readName [9, 1, 67, 0] [2, 65, 98, 192, 1, 7] = .ok (⟨ascii "ab.c."⟩, [7]) := by
  refine ⟨?_, by decide, by decide +kernel⟩
  exact .label 255 2 [65, 98] [192, 1, 7] [[67]] [7] (by decide) rfl (by decide) (by decide)
    (.pointer 254 192 1 [[67]] [7] [] (by decide) (by decide)
      (.label 254 1 [67] [0] [] [] (by decide) rfl (by decide) (by decide) (.root 254 [])))

end Dnssec.Props
