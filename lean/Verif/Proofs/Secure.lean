import Verif.Spec.Secure
import Verif.Proofs.World
import Verif.Proofs.KeyOrder
import Verif.Props.Denials
import Verif.Props.Window

/-! # Lemmas for C117 -/

namespace Dnssec

open Spec Props

variable {dbg : Bool} {p : Platform} {fuel : Nat} {inp : List RR} {v : Verified} {T : Nat}

theorem covers_of_good {s : RRSig} {keys : List DnsKey} {rs : List RR} (hg : (rfcCheck p).good s keys rs) (ht : ValidAt s T) :
    ∃ k ∈ keys, Covers p T s k rs := by
  obtain ⟨h1, k, msg, ⟨pre, post, e, he, _⟩, hm, hc⟩ := hg
  exact ⟨k, by rw [e]; simp, h1, he, ht, msg, hm, hc⟩

theorem nameWithin_of (hc : Conventional p inp) {s : RRSig} (hs : RR.rrsig s ∈ inp) (he : ∃ pre, s.name.bytes = pre ++ s.keyName.bytes) :
    NameWithin s.name s.keyName := by
  obtain ⟨rl, hrl⟩ := hc.proper.owners _ hs
  obtain ⟨zl, hzl⟩ := hc.proper.signers s hs
  change HasLabels s.name rl at hrl
  refine ⟨rl, zl, hrl, hzl, ?_⟩
  rcases hc.within s hs with h | h | h
  · rw [h] at hzl
    rw [hzl.unique (show HasLabels rootName [] by decide)]
    exact ⟨rl, by simp⟩
  · rw [h] at hrl
    rw [hrl.unique hzl]
    exact ⟨[], rfl⟩
  · have he' := (endsWith_iff _ _).mpr he
    rw [hrl.bytes, hzl.bytes] at he'
    rcases text_suffix hrl.labels hzl.labels he' with rfl | ⟨above, x, first, rest, rfl, rfl⟩
    · exact ⟨rl, by simp⟩
    · have e1 : s.name.bytes = (dotted above ++ x) ++ s.keyName.bytes := by
        rw [hrl.bytes, hzl.bytes, text_ne_nil (by simp), text_ne_nil (by simp)]
        simp [dotted]
      obtain ⟨pre', hp⟩ := h _ e1
      by_cases hx : x = []
      · subst hx; exact ⟨above, by simp⟩
      · exfalso
        have hlast : x.getLast hx = 46 := by
          have := congrArg List.getLast? hp
          rw [List.getLast?_append, List.getLast?_concat, List.getLast?_eq_some_getLast hx] at this
          simpa using this
        have : dot ∈ x := by
          have := List.getLast_mem hx
          rw [hlast] at this
          exact this
        exact (hrl.labels (x ++ first) (by simp)).nodot (by simp [this])

theorem atOwnName_of (hc : Conventional p inp) {s : RRSig} (hs : RR.rrsig s ∈ inp) (hx : ¬ Expanded s) : AtOwnName s := by
  obtain ⟨rl, hrl⟩ := hc.proper.owners _ hs
  change HasLabels s.name rl at hrl
  refine ⟨rl, hrl, ?_⟩
  by_cases h47 : s.ty = 47
  · exact .inr h47
  · refine .inl ?_
    have : s.labels = s.name.labels := Decidable.byContradiction fun e => hx ⟨e, h47⟩
    rw [this, hrl.labels_eq]

/-- A signature which the code takes for a wildcard's, and the name it wants the denial of. -/
theorem nextCloser_of (hc : Conventional p inp) {s : RRSig} (hs : RR.rrsig s ∈ inp) {name : Bytes} (hne : name ≠ [46])
    (hn : s.name.trailingNLabels (s.labels + 1) = some name) : NextCloser s name := by
  obtain ⟨ls, hl⟩ := hc.proper.owners _ hs
  change HasLabels s.name ls at hl
  have htr := hl.trailing (s.labels + 1)
  rw [hn] at htr
  by_cases h255 : s.labels = 255
  · rw [h255] at htr
    have : ((255 : UInt8) + 1).toNat = 0 := by decide
    rw [this, if_pos (Nat.zero_le _)] at htr
    simp only [Nat.sub_zero, List.drop_length, Option.some.injEq] at htr
    exact absurd htr hne
  · have hlt := s.labels.toNat_lt
    have h255' : s.labels.toNat ≠ 255 := fun e => h255 (UInt8.toNat_inj.mp e)
    have hsucc : (s.labels + 1).toNat = s.labels.toNat + 1 := by
      rw [UInt8.toNat_add]
      change (s.labels.toNat + 1) % 256 = _
      omega
    rw [hsucc] at htr
    split at htr
    · rename_i hle
      have hdrop : ls.drop (ls.length - (s.labels.toNat + 1)) ≠ [] := by
        intro e
        have := congrArg List.length e
        simp at this
        omega
      obtain ⟨next, suf, e⟩ := List.exists_cons_of_ne_nil hdrop
      refine ⟨ls.take (ls.length - (s.labels.toNat + 1)), next, suf, ?_, ?_, ?_⟩
      · rw [← e, List.take_append_drop]; exact hl
      · have := congrArg List.length e
        simp at this
        omega
      · rw [← e]; exact Option.some.inj htr
    · simp at htr

theorem nextCloser_trailing {s : RRSig} {name : Bytes} (h : NextCloser s name) : s.name.trailingNLabels (s.labels + 1) = some name := by
  obtain ⟨pre, next, suf, hl, hlen, rfl⟩ := h
  have hle := hl.length_le
  simp only [List.length_append, List.length_cons] at hle
  have hsucc : (s.labels + 1).toNat = s.labels.toNat + 1 := by
    rw [UInt8.toNat_add]
    change (s.labels.toNat + 1) % 256 = _
    omega
  rw [hl.trailing, hsucc, ← hlen, if_pos (by simp)]
  simp

theorem nextCloser_ne_root {s : RRSig} {name : Bytes} (h : NextCloser s name) : name ≠ [46] := by
  obtain ⟨pre, next, suf, hl, _, rfl⟩ := h
  have := (hl.labels next (by simp)).nonempty
  rw [text_ne_nil (by simp)]
  intro e
  have e2 := congrArg List.length e
  obtain ⟨a, b, rfl⟩ := List.exists_cons_of_ne_nil this
  simp at e2

section

variable (h : verifyRRStream dbg p fuel inp = some (.ok v)) (hc : Conventional p inp) (h1 : v.validFrom ≤ T) (h2 : T ≤ v.expires)
include h hc h1 h2

theorem used_validAt {s : RRSig} (hm : RR.rrsig s ∈ inp) (hs : Used (codeCheck p) p inp s) : ValidAt s T :=
  C89_sound_partial h h1 h2 s hs (hc.times s hm).1 (hc.times s hm).2

theorem secure_rootKeys : Secure p inp T rootName rootName 48 := by
  obtain ⟨ksig, hk⟩ := C21_all_key_sets h _ Reached.root
  have hA := agrees_rfc p inp hc.proper
  obtain ⟨_, before, after, e, _, hg⟩ := (hA.zoneKeysOk _ _).mp hk
  have hm : ksig ∈ keySigs inp rootName := by rw [e]; simp
  obtain ⟨m1, m2, m3⟩ := mem_keySigs.mp hm
  obtain ⟨k, hkm, hcov⟩ := covers_of_good hg (used_validAt h hc h1 h2 m1 ⟨_, Reached.root, .inl hk⟩)
  obtain ⟨ka, kb⟩ := List.mem_filter.mp hkm
  obtain ⟨kc, kd⟩ := mem_keysAt.mp ka
  rw [keysAt_map] at hcov
  exact .rootKeys ksig k m1 m2 m3 (by rw [hc.keySigner ksig m1 m3, m2])
    (atOwnName_of hc m1 fun hx => hx.1 (hc.chain ksig m1 (.inr m3))) kc kd (by simpa [anchors] using kb) hcov

/-- What a secure zone signs for a name of its own is secure. -/
theorem secure_signed {z : Name} (hz : Reached (codeCheck p) p inp z) (hk : Secure p inp T z z 48) {s : RRSig}
    (hs : SignedBy (codeCheck p) inp z s) (hx : ¬ Expanded s) : Secure p inp T z s.name s.ty := by
  obtain ⟨st, hF, _⟩ := verifyRRStream_ok h
  have hA := agrees_rfc p inp hc.proper
  obtain ⟨m1, m2, m3⟩ := mem_sigsBy.mp hs.1
  obtain ⟨k, hkm, hcov⟩ := covers_of_good ((hA.signedBy z s).mp hs).2 (used_validAt h hc h1 h2 m1 ⟨_, hz, .inr hs⟩)
  obtain ⟨kc, kd⟩ := mem_keysAt.mp hkm
  have hin : NameWithin s.name z := by
    have := nameWithin_of hc m1
    rw [m2] at this
    exact this ((endsWith_iff _ _).mp (hF.sigs z hz s hs.1).1)
  exact .signed z s k hk m1 m2 m3 hin (atOwnName_of hc m1 hx) kc kd hcov

theorem secure_keys {z : Name} (hz : Reached (codeCheck p) p inp z) : Secure p inp T z z 48 := by
  obtain ⟨st, hF, _⟩ := verifyRRStream_ok h
  have hA := agrees_rfc p inp hc.proper
  induction hz with
  | root => exact secure_rootKeys h hc h1 h2
  | delegated z ksig sig hz hk hs hty ih =>
    by_cases hroot : sig.name = rootName
    · rw [hroot]; exact secure_rootKeys h hc h1 h2
    · have hm := (mem_sigsBy.mp hs.1).1
      have hds := secure_signed h hc h1 h2 hz ih hs fun hx => hx.1 (hc.chain sig hm (.inl hty))
      rw [hty] at hds
      have hr : Reached (codeCheck p) p inp sig.name := .delegated z ksig sig hz hk hs hty
      obtain ⟨ksig', hk'⟩ := hF.keys _ hr
      obtain ⟨_, before, after, e, _, hg⟩ := (hA.zoneKeysOk _ _).mp hk'
      have hm : ksig' ∈ keySigs inp sig.name := by rw [e]; simp
      obtain ⟨m1, m2, m3⟩ := mem_keySigs.mp hm
      obtain ⟨k, hkm, hcov⟩ := covers_of_good hg (used_validAt h hc h1 h2 m1 ⟨_, hr, .inl hk'⟩)
      obtain ⟨ka, kb⟩ := List.mem_filter.mp hkm
      obtain ⟨kc, kd⟩ := mem_keysAt.mp ka
      rw [keysAt_map] at hcov
      exact .zoneKeys z sig.name ksig' k hds (fun e => hF.noSelf z hz sig hs hty e.symm) hroot m1 m2 m3
        (by rw [hc.keySigner ksig' m1 m3, m2]) (atOwnName_of hc m1 fun hx => hx.1 (hc.chain ksig' m1 (.inr m3))) kc kd
        (by simpa [anchors, hroot] using kb) hcov

theorem secure_authenticated {r : RR} (hr : Authenticated (codeCheck p) p inp r) : ∃ z, Secure p inp T z r.name r.ty := by
  obtain ⟨z, ksig, s, hz, _, hs, hin, hn, ht⟩ := hr
  rw [hn, ht]
  refine ⟨z, ?_⟩
  have hk := secure_keys h hc h1 h2 hz
  by_cases hx : Expanded s
  · obtain ⟨st, hF, _⟩ := verifyRRStream_ok h
    have hA := agrees_rfc p inp hc.proper
    obtain ⟨m1, m2, m3⟩ := mem_sigsBy.mp hs.1
    have hds : s.ty ≠ 43 := fun e => hx.1 (hc.chain s m1 (.inl e))
    obtain ⟨k, hkm, hcov⟩ := covers_of_good ((hA.signedBy z s).mp hs).2 (used_validAt h hc h1 h2 m1 ⟨_, hz, .inr hs⟩)
    obtain ⟨kc, kd⟩ := mem_keysAt.mp hkm
    have hin' : NameWithin s.name z := by
      have := nameWithin_of hc m1
      rw [m2] at this
      exact this ((endsWith_iff _ _).mp (hF.sigs z hz s hs.1).1)
    obtain ⟨ls, hl⟩ := hc.proper.owners _ m1
    change HasLabels s.name ls at hl
    obtain ⟨pre, next, suf, rfl, hlen, _⟩ := C28_wildcard_needs_denial h z s hz hs r hin hn ht hds hx ls hl
    have hnc : NextCloser s (text (next :: suf)) := ⟨pre, next, suf, hl, hlen, rfl⟩
    have htr := nextCloser_trailing hnc
    obtain ⟨z', ⟨s', hz', hs', _, hx', htr'⟩, hd⟩ := C29_used_partial h z s hz hs hds hx _ htr
    obtain ⟨m1', m2', _⟩ := mem_sigsBy.mp hs'.1
    have hnc' := nextCloser_of hc m1' (nextCloser_ne_root hnc) htr'
    have hzz : z' = z := by rw [← m2', ← m2]; exact hc.oneZone s' s _ m1' m1 hx'.2 hx.2 hnc' hnc
    subst hzz
    rcases hd with ⟨n, hn1, hn2, hn3⟩ | ⟨n, hn1, hn2, a1, a2, a3, hn3⟩
    · obtain ⟨zn, _, sn, hzn, _, hsn, hnin, hnn, hnt⟩ := hn1
      have hat := (hc.notAt s _ m1 hx.2 hnc).1 n hnin
      have hbet : StrictlyBetween n (text (next :: suf)) := by
        rcases hn3 with (hn3 | hn3) | hn3
        · exact absurd (by rw [hn3.1]) hat
        · exact hn3
        · exact absurd hn3 hat
      obtain ⟨b1, b2, b3⟩ := mem_sigsBy.mp hsn.1
      have hkn := (hc.sameZone s _ m1 hx.2 hnc).1 n hnin (by rw [m2]; exact hn2) hbet sn b1 hnn.symm hnt.symm
      have : zn = z' := by rw [← b2, hkn, m2]
      subst this
      have := secure_signed h hc h1 h2 hzn hk hsn fun e => e.2 hnt.symm
      rw [← hnn, ← hnt] at this
      exact .wildcardNsec zn s k _ n hk m1 m2 m3 hin' kc kd hcov hnc hnin this hbet
    · obtain ⟨zn, _, sn, hzn, _, hsn, hnin, hnn, hnt⟩ := hn1
      have hat := (hc.notAt s _ m1 hx.2 hnc).2 n
      have hbet : HashStrictlyBetween p n (text (next :: suf)) := by
        refine ⟨a1, a2, a3, ?_⟩
        rcases hn3 with ⟨label, rest, start, e1, e2, e3, ⟨e4, _⟩ | e4⟩ | ⟨label, rest, e1, e2, e3⟩
        · exact absurd (e4 ▸ e3) (hat label rest hnin e1 e2)
        · exact ⟨label, rest, start, e1, e2, e3, e4⟩
        · exact absurd e3 (hat label rest hnin e1 e2)
      obtain ⟨b1, b2, b3⟩ := mem_sigsBy.mp hsn.1
      have hkn := (hc.sameZone s _ m1 hx.2 hnc).2 n hnin (by rw [m2]; exact hn2) hbet sn b1 hnn.symm hnt.symm
      have : zn = z' := by rw [← b2, hkn, m2]
      subst this
      have hxn : ¬ Expanded sn := by
        intro e
        rcases (hF.sigs zn hzn sn hsn.1).2 with hu | ⟨_, ha⟩
        · have : verifyRrsig p sn (keysAt inp zn) (rrset inp sn.name sn.ty) = .ok () := hsn.2
          have hu : verifyRrsig p sn (keysAt inp zn) (rrset inp sn.name sn.ty) = .err .unsupported := hu
          rw [this] at hu
          simp at hu
        · exact (ha.2.2 (by rw [← hnt]; show (50 : UInt16) ≠ 43; decide) e).1 hnt.symm
      have := secure_signed h hc h1 h2 hzn hk hsn hxn
      rw [← hnn, ← hnt] at this
      exact .wildcardNsec3 zn s k _ n hk m1 m2 m3 hin' kc kd hcov hnc hnin this hbet
  · exact secure_signed h hc h1 h2 hz hk hs hx

end

/-- What is secure was reached, if the proof is accepted. -/
theorem reached_of_secure (h : verifyRRStream dbg p fuel inp = some (.ok v)) {z n : Name} {ty : UInt16} (hs : Secure p inp T z n ty) :
    Reached (codeCheck p) p inp z ∧ (ty = 48 → n = z) ∧
      (ty ≠ 48 → ∃ s, SignedBy (codeCheck p) inp z s ∧ s.name = n ∧ s.ty = ty) := by
  obtain ⟨st, hF, _⟩ := verifyRRStream_ok h
  have signed : ∀ (z : Name) (sig : RRSig) (k : DnsKey), Reached (codeCheck p) p inp z → RR.rrsig sig ∈ inp → sig.keyName = z →
      sig.ty ≠ 48 → Covers p T sig k (rrset inp sig.name sig.ty) → SignedBy (codeCheck p) inp z sig := by
    intro z sig k hz hm hk h48 hcov
    rcases (hF.sigs z hz sig (mem_sigsBy.mpr ⟨hm, hk, h48⟩)).2 with hu | hu
    · obtain ⟨msg, _, hcr⟩ := hcov.crypto
      exact absurd hcr.isSupported ((verifyRrsig_unsupported_iff _ _ _ _).mp hu).2.2.2
    · exact hu.1
  induction hs with
  | rootKeys sig k => exact ⟨.root, fun _ => rfl, fun e => absurd rfl e⟩
  | zoneKeys parent z sig k _ _ _ _ _ _ _ _ _ _ _ _ ih =>
    obtain ⟨a, _, b⟩ := ih
    obtain ⟨s, hs, hn, ht⟩ := b (by decide)
    obtain ⟨ksig, hk⟩ := hF.keys _ a
    refine ⟨?_, fun _ => rfl, fun e => absurd rfl e⟩
    rw [← hn]
    exact .delegated parent ksig s a hk hs ht
  | signed z sig k _ hm hk h48 _ _ _ _ hcov ih =>
    exact ⟨ih.1, fun e => absurd e h48, fun _ => ⟨sig, signed z sig k ih.1 hm hk h48 hcov, rfl, rfl⟩⟩
  | wildcardNsec z sig k name n _ hm hk h48 _ _ _ hcov _ _ _ _ ih _ =>
    exact ⟨ih.1, fun e => absurd e h48, fun _ => ⟨sig, signed z sig k ih.1 hm hk h48 hcov, rfl, rfl⟩⟩
  | wildcardNsec3 z sig k name n _ hm hk h48 _ _ _ hcov _ _ _ _ ih _ =>
    exact ⟨ih.1, fun e => absurd e h48, fun _ => ⟨sig, signed z sig k ih.1 hm hk h48 hcov, rfl, rfl⟩⟩

end Dnssec
