import Verif.Proofs.JsonRecords
import Verif.Proofs.Name

/-! # C52: JSON output -/

namespace Dnssec.Props

open Dnssec Spec

/-- Names without a backslash are plain. -/
theorem obtainable_plain {n : Name} (h : Obtainable n) (hb : 92 ∉ n.bytes) : Plain n.bytes ∧ IsAscii n.bytes := by
  have hp := h.nameText.1.printable
  refine ⟨fun c hc => ⟨by have := hp c hc; omega, ?_, ?_⟩, fun c hc => by have := hp c hc; omega⟩
  · rintro rfl; exact (hp 34 hc).2.2 rfl
  · rintro rfl; exact hb hc

/-- **C52.** For every record except signatures, whose names contain no backslash, `json()` is a JSON text for an object with the
members given in `JsonOf`: the record's type, its own name and each of its fields.
Missing from the full property: signatures and names with a backslash, for which it is false. -/
theorem C52_json_partial {rr : RR} (hsig : ∀ s, rr ≠ .rrsig s) (hname : Obtainable rr.name) (hinner : ∀ n ∈ rdataNames rr, Obtainable n)
    (hb : 92 ∉ rr.name.bytes) (hbi : ∀ n ∈ rdataNames rr, 92 ∉ n.bytes) :
    ∃ ms, JsonText rr.json (.obj ms) ∧ JsonOf rr ms := by
  obtain ⟨p1, a1⟩ := obtainable_plain hname hb
  have pi := fun n hn => obtainable_plain (hinner n hn) (hbi n hn)
  obtain ⟨ms, h1, h2⟩ := record_json hsig p1 (fun n hn => (pi n hn).1)
  exact ⟨ms, ⟨utf8Valid_iff.mp (record_utf8 a1 fun n hn => (pi n hn).2), [], _, [], by simp, ws_nil, h1, ws_nil⟩, h2⟩

/-- A concrete record: the text, byte for byte. -/
example : (RR.tlsa ⟨⟨ascii "_25._tcp.a."⟩, 3, 1, 10, [0x0f, 0xa0]⟩).json =
    ascii "{\"type\":\"tlsa\",\"name\":\"_25._tcp.a.\",\"usage\":3,\"selector\":1,\"data_ty\":10,\"data\":\"0FA0\"}" := by decide +kernel

example : (RR.nsec ⟨⟨ascii "a."⟩, ⟨ascii "b."⟩, ⟨⟨0x42 :: (List.replicate 31 0 ++ [0x80] ++ List.replicate 8159 0), by decide +kernel⟩⟩⟩).json =
    ascii "{\"type\":\"nsec\",\"name\":\"a.\",\"next_name\":\"b.\",\"types\":[6,\"A\",256]}" := by decide +kernel

example : Obtainable ⟨ascii "_25._tcp.a."⟩ ∧ 92 ∉ ascii "_25._tcp.a." := ⟨⟨ascii "_25._TCP.A.", (tryFrom_denotes _ _).mp (by decide)⟩, by decide⟩

/-- **C52.** Whatever the text data is, it can be read back: it appears as a string if it is UTF-8 without control
characters, quotes and backslashes, and as an array of bytes otherwise. -/
theorem C52_text (r : Txt) (hname : Obtainable r.name) (hb : 92 ∉ r.name.bytes) :
    ∃ c, ((Printable r.data ∧ c = .str r.data) ∨ (¬ Printable r.data ∧ c = bytesArr r.data)) ∧
      JsonText (RR.txt r).json (.obj [(ascii "type", .str (ascii "txt")), (ascii "name", .str r.name.bytes), (ascii "contents", c)]) := by
  obtain ⟨ms, h1, c, h2, rfl⟩ := C52_json_partial (rr := .txt r) (by simp) hname (by simp [rdataNames]) hb (by simp [rdataNames])
  exact ⟨c, h2, h1⟩

/-- Text with a quote, and text that is not UTF-8. -/
example : (RR.txt ⟨⟨ascii "a."⟩, ascii "x\""⟩).json = ascii "{\"type\":\"txt\",\"name\":\"a.\",\"contents\":[120, 34]}" ∧
    (RR.txt ⟨⟨ascii "a."⟩, [0xff]⟩).json = ascii "{\"type\":\"txt\",\"name\":\"a.\",\"contents\":[255]}" ∧
    (RR.txt ⟨⟨ascii "a."⟩, ascii "x y"⟩).json = ascii "{\"type\":\"txt\",\"name\":\"a.\",\"contents\":\"x y\"}" := by decide +kernel

/-- **C52 is false for signatures:** the JSON of no signature (whose owner has no backslash) is JSON at all. -/
theorem C52_fails_for_rrsig {s : RRSig} (hname : Obtainable s.name) (hb : 92 ∉ s.name.bytes) : ∀ v, ¬ JsonText (RR.rrsig s).json v := by
  intro v h
  have h1 := scan_jsonText h
  rw [rrsig_scan (fun c hc => ((obtainable_plain hname hb).1 c hc).2)] at h1
  omega

example : (RR.rrsig ⟨⟨ascii "a."⟩, 16, 8, 1, 300, 20, 10, 5, ⟨ascii "."⟩, [1]⟩).json =
    ascii ("{\"type\":\"ds\",\"name\":\"a.\",\"signed_record_type\":16,\"alg\":8,\"signed_labels\":1,\"orig_ttl\":300,\"expiration\"20," ++
      "\"inception\":10,\"key_tag\":5,\"key_name\":\".\",\"signature\":\"01\"}") := by decide +kernel

/-- **C52 is false for names with a backslash:** for the name `a\.` the output is not JSON. -/
theorem C52_fails_for_backslash : Obtainable ⟨ascii "a\\."⟩ ∧
    ∀ v, ¬ JsonText (RR.ns ⟨⟨ascii "a\\."⟩, ⟨ascii "b."⟩⟩).json v := by
  refine ⟨⟨ascii "a\\.", (tryFrom_denotes _ _).mp (by decide)⟩, fun v h => ?_⟩
  have h1 := scan_jsonText h
  rw [show scanAll 0 (RR.ns ⟨⟨ascii "a\\."⟩, ⟨ascii "b."⟩⟩).json = 4 by decide +kernel] at h1
  omega

/-- **C52 is false for names with a backslash:** for the name `a\n.` (letter n) the output is JSON for another name, `a`, newline, `.`. -/
theorem C52_fails_for_backslash_other_name : Obtainable ⟨ascii "a\\n."⟩ ∧
    JsonText (RR.ns ⟨⟨ascii "a\\n."⟩, ⟨ascii "b."⟩⟩).json
      (.obj [(ascii "type", .str (ascii "ns")), (ascii "name", .str (ascii "a\n.")), (ascii "ns", .str (ascii "b."))]) ∧
    ascii "a\n." ≠ ascii "a\\n." := by
  refine ⟨⟨ascii "a\\n.", (tryFrom_denotes _ _).mp (by decide)⟩, ⟨by decide +kernel, [], (RR.ns ⟨⟨ascii "a\\n."⟩, ⟨ascii "b."⟩⟩).json, [], by simp, ws_nil, ?_, ws_nil⟩, by decide⟩
  have h : Chars (ascii "a\\n.") (ascii "a\n.") :=
    .plain (by decide) (by decide) (by decide) (.escape (by decide) (.plain (by decide) (by decide) (by decide) .nil))
  have := value_record [(ascii "type", quoted (ascii "ns"), .str (ascii "ns")), (ascii "name", quoted (ascii "a\\n."), .str (ascii "a\n.")),
      (ascii "ns", quoted (ascii "b."), .str (ascii "b."))] (text := (RR.ns ⟨⟨ascii "a\\n."⟩, ⟨ascii "b."⟩⟩).json) (by simp) ?_
      (by decide +kernel)
  · exact this
  · simp only [List.mem_cons, List.not_mem_nil, or_false, forall_eq_or_imp, forall_eq]
    exact ⟨⟨by decide, value_quoted (by decide)⟩, ⟨by decide, .str h⟩, ⟨by decide, value_quoted (by decide)⟩⟩

end Dnssec.Props
