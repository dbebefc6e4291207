import Verif.Spec.Fresh
import Verif.Props.Doh
import Verif.Props.Window
import Verif.Props.Cache

/-! # C100: whether records are current -/

namespace Dnssec.Props

open Dnssec Spec

variable {dbg : Bool} {p : Platform} {w : World} {name : Name} {T : Nat}

theorem window_current (hw : w.Signed p) (hT : w.CurrentAt T) {inp extra : List RR} (hx : w.Unsigned extra) (hi : inp.Perm (w.records ++ extra))
    {fuel : Nat} {v : Verified} (hv : verifyRRStream dbg p fuel inp = some (.ok v)) : v.validFrom ≤ T ∧ T ≤ v.expires := by
  have key : ∀ s, Used (codeCheck p) p inp s → instant s.inception ≤ T ∧ T ≤ instant s.expiration := by
    intro s hs
    rcases List.mem_append.mp (hi.mem_iff.mp (used_mem hs)) with hm | hm
    · obtain ⟨t, ht, hm⟩ := List.mem_flatMap.mp hm
      have hwf := hw.wellFormed t ht
      rcases List.mem_append.mp hm with hm | hm
      · exact absurd (hwf.members _ hm).2.symm hwf.notSig
      · obtain ⟨s', hm, e⟩ := List.mem_map.mp hm
        cases e
        obtain ⟨a, b, c, d⟩ := hT t ht _ hm
        unfold instant
        rw [if_neg (by omega), if_neg (by omega)]
        exact ⟨b, d⟩
    · exact absurd rfl (hx _ hm).1
  obtain ⟨⟨⟨s1, u1, e1⟩, _⟩, ⟨⟨s2, u2, e2⟩, _⟩, _⟩ := C24_window hv
  exact ⟨e1 ▸ (key s1 u1).1, e2 ▸ (key s2 u2).2⟩

/-- **C100.** With a correctly functioning resolver, as in C67: if all signatures are valid at the time `T`, so is the proof, according to
the window that comes with the verified records. -/
theorem C100_fresh {ty : UInt16} {resolve : Bytes → Bytes} (hw : w.Signed p) (hk : w.AnsweredAnchoredFirst dbg p resolve) (hr : Honest dbg w name ty resolve)
    (h1 : w.zones ≠ []) (h4 : w.zones.length ≤ 4) (hT : w.CurrentAt T) {answered : List Bytes} {b : ProofBuilder}
    (h : Session dbg resolve name ty [] answered b) :
    ∃ proof ttl inp, b.finish = some (proof, ttl) ∧ (∀ dbg', parseRRStream dbg' proof = .ok inp) ∧
      ∀ dbg', ∃ fuel v, verifyRRStream dbg' p fuel inp = some (.ok v) ∧ v.validFrom ≤ T ∧ T ≤ v.expires := by
  obtain ⟨proof, ttl, inp, extra, f1, fx, f2, f3, fo⟩ := session_done hw hr h h4
  obtain ⟨inp', g1, g2, g3⟩ := without_unsigned hw fx f2
  refine ⟨proof, ttl, inp, f1, f3, fun dbg' => ?_⟩
  obtain ⟨fuel, v, hv, _⟩ := world_verified hw ((first_iff hw hr fo g3).mpr hk) g1 h1 dbg'
  rw [g2] at hv
  exact ⟨fuel, v, hv, window_current hw hT fx f2 hv⟩

variable {fuel rounds : Nat} {js : Js} {domain ty endpoint : Bytes} {fetch : Nat → Bytes → Fetch}

/-- **C100.** What a lookup returns says from when to when the records are valid: if it is not an error (or the report of an exception), it is a
JSON text with the window of a verified proof, and at every moment of that window all signatures the records rest on are valid as RFC
4034 says (for signatures as in C89). So a caller who compares the window with the clock gets only current records. Missing from the full
property: that the lookup does so itself, for which it is false. -/
theorem C100_window_partial {urls : List Bytes} {text : Bytes} (hjs : Js.Conforms js)
    (h : lookupDoh dbg p fuel rounds js domain ty endpoint fetch = some (urls, .returns text)) :
    (∃ e, JsonText text (.obj [(ascii "error", .str e)])) ∨
    (∃ e, ((∃ k q, fetch k (dohGet endpoint q) = .throws e) ∨ e = js.trap) ∧
      text = ascii "{\"error\":\"DoH Query failed: " ++ e ++ ascii "\"}") ∨
    ∃ inp v, verifyRRStream dbg p fuel inp = some (.ok v) ∧
      (∀ T, v.validFrom ≤ T → T ≤ v.expires → ∀ s, Used (codeCheck p) p inp s → cutoff ≤ s.inception.toNat →
        instant s.expiration + 1 < instant s.inception + 2 ^ 31 → ValidAt s T) ∧
      ((∀ r ∈ v.verifiedRrs, 92 ∉ r.name.bytes ∧ ∀ n ∈ rdataNames r, 92 ∉ n.bytes) →
        ∃ objs, JsonText text (.obj [(ascii "valid_from", .nat v.validFrom), (ascii "expires", .nat v.expires),
          (ascii "max_cache_ttl", .nat v.maxCacheTtl.toNat), (ascii "verified_rrs", .arr objs)])) := by
  rcases C63_authentic_partial hjs h with h | h | ⟨inp, v, hv, _, hj⟩
  · exact Or.inl h
  · exact Or.inr (Or.inl h)
  · refine Or.inr (Or.inr ⟨inp, v, hv, fun T h1 h2 s hs hi hl => C89_sound_partial hv h1 h2 s hs hi hl, fun hb => ?_⟩)
    obtain ⟨j, hj, ⟨objs, _, _, rfl⟩, _⟩ := hj hb
    exact ⟨_, hj⟩

/-- A signature made and expired in 2001. -/
def oldSig (n : String) (ty : UInt16) (labels : UInt8) (z : String) (r : RR) : RRSig :=
  { autoSig n ty labels z r with expiration := 1000000001 }

def oldAll (n : String) (ty : UInt16) (labels : UInt8) (z : String) (r : RR) : List RR := [r, .rrsig (oldSig n ty labels z r)]

/-- Responses with such signatures. -/
def oldReplies : List Bytes :=
  [exReply "a.c." 1 (oldAll "a.c." 1 2 "c." (wA "a.c.")) [], exReply "c." 48 (oldAll "c." 48 1 "c." (wKey "c.")) [],
    exReply "c." 43 (oldAll "c." 43 1 "." (wDs "c.")) [], exReply "." 48 (oldAll "." 48 0 "." (wKey ".")) []]

/-- **C100 is false:** a lookup returns records whose signatures have expired long ago (none of them is valid at any time from
2001 to 2069); neither `lookup_doh` nor `verify_byte_stream` looks at the clock. -/
theorem C100_fails_expired :
    (lookupDoh true lenPlatform 5 11 ⟨some, ascii "unreachable"⟩ (ascii "a.c") (ascii "a") (ascii "https://dns.example/q")
      (fun k _ => .body (oldReplies.getD k []))).map (·.2) =
    some (.returns (ascii "{\"valid_from\": 1000000000, \"expires\": 1000000001, \"max_cache_ttl\": 3600, \"verified_rrs\": [{\"type\":\"a\",\"name\":\"a.c.\",\"address\":[1, 2, 3, 4]}]}")) ∧
    ∀ n ty labels z r T, 1000000002 ≤ T → T < 1000000001 + 2 ^ 31 → ¬ ValidAt (oldSig n ty labels z r) T := by
  refine ⟨by decide +kernel, fun n ty labels z r T h1 h2 h => ?_⟩
  have h3 : SerialLe (T % 2 ^ 32) 1000000001 := h.2
  unfold SerialLe at h3
  omega

/-- The world of C67's example is current in 2010, and its lookup returns. -/
example : exWorld.CurrentAt 1262300400 ∧ ∃ answered b, Session true exResolve ⟨ascii "x.c."⟩ 1 [] answered b := by
  obtain ⟨ans, b, hs, _⟩ := session_fifo exSigned (exHonest true) (by decide) 10 _ [] _ (by simp) .new .new
  exact ⟨by unfold Spec.World.CurrentAt; decide +kernel, ans, b, hs⟩

end Dnssec.Props
