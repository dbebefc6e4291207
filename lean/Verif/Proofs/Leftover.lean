import Verif.Spec.Leftover
import Verif.Proofs.Server

/-! # What a rejected response leaves behind -/

namespace Dnssec

open Spec

variable {dbg : Bool} {resp : Bytes}

theorem goodHeader_iff {an ns : Nat} {body : Bytes} :
    GoodHeader resp an ns body ↔ ∃ a n, readHeader resp = .ok ((a, n), body) ∧ a.toNat = an ∧ n.toNat = ns := by
  constructor
  · rintro ⟨fl, a, n, ar, qn, qt, qc, h1, h2, h3, h4, h5, h6, h7, h8, h9⟩
    exact ⟨a, n, (readHeader_iff _ _ _ _).mpr ⟨fl, ar, qn, qt, qc, h1, h2, h3, h4, h5, h6, h7⟩, h8, h9⟩
  · rintro ⟨a, n, h, h8, h9⟩
    obtain ⟨fl, ar, qn, qt, qc, h1, h2, h3, h4, h5, h6, h7⟩ := (readHeader_iff _ _ _ _).mp h
    exact ⟨fl, a, n, ar, qn, qt, qc, h1, h2, h3, h4, h5, h6, h7, h8, h9⟩

theorem unreadable_iff {inp : Bytes} : Unreadable dbg resp inp ↔ parseWirePacketRR dbg resp inp = .err () := by
  unfold Unreadable
  rw [← recordPanics_iff]
  constructor
  · rintro ⟨h1, h2⟩
    cases h : parseWirePacketRR dbg resp inp with
    | ok x => exact absurd (parseWirePacketRR_iff.mp h) (h1 _ _)
    | err e => rfl
    | panic => exact absurd h h2
  · intro h
    refine ⟨fun r rest hr => ?_, by rw [h]; simp⟩
    rw [parseWirePacketRR_iff.mpr hr] at h
    exact nomatch h

theorem answersLoop_err {n : Nat} : ∀ {st st' : HState}, answersLoop dbg resp n st = (st', .err ()) →
    ∃ k recs at_, k < n ∧ Records dbg resp k st.read recs at_ ∧ Unreadable dbg resp at_ ∧ Added st recs st' := by
  induction n with
  | zero => intro st st' h; simp [answersLoop] at h
  | succ n ih =>
    intro st st' h
    rw [answersLoop] at h
    cases hp : parseWirePacketRR dbg resp st.read with
    | panic => rw [hp] at h; simp at h
    | err e =>
      rw [hp] at h
      simp only [Prod.mk.injEq, and_true] at h
      subst h
      exact ⟨0, [], _, by omega, .nil _, unreadable_iff.mpr hp, added_nil _⟩
    | ok x =>
      obtain ⟨⟨rr, ttl⟩, rd⟩ := x
      rw [hp] at h
      obtain ⟨k, recs, at_, hk, hr, hu, ha⟩ := ih h
      exact ⟨k + 1, _, at_, by omega, .cons (parseWirePacketRR_iff.mp hp) hr, hu, added_cons.mp ha⟩

theorem authoritiesLoop_err {n : Nat} : ∀ {st st' : HState}, authoritiesLoop dbg resp n st = (st', .err ()) →
    ∃ k recs at_, k < n ∧ Records dbg resp k st.read recs at_ ∧ Unreadable dbg resp at_ ∧
      Added st (recs.filter fun r => denialRecord r.1) st' := by
  induction n with
  | zero => intro st st' h; simp [authoritiesLoop] at h
  | succ n ih =>
    intro st st' h
    rw [authoritiesLoop] at h
    cases hp : parseWirePacketRR dbg resp st.read with
    | panic => rw [hp] at h; simp at h
    | err e =>
      rw [hp] at h
      simp only [Prod.mk.injEq, and_true] at h
      subst h
      exact ⟨0, [], _, by omega, .nil _, unreadable_iff.mpr hp, added_nil _⟩
    | ok x =>
      obtain ⟨⟨rr, ttl⟩, rd⟩ := x
      rw [hp] at h
      simp only at h
      have hk := keepAuthority_eq rr
      split at h
      · rename_i hkeep
        obtain ⟨k, recs, at_, hk', hr, hu, ha⟩ := ih h
        refine ⟨k + 1, (rr, ttl) :: recs, at_, by omega, .cons (parseWirePacketRR_iff.mp hp) hr, hu, ?_⟩
        rw [List.filter_cons_of_pos (by simpa [← hk] using hkeep)]
        exact added_cons.mp ha
      · rename_i hkeep
        obtain ⟨k, recs, at_, hk', hr, hu, ha⟩ := ih h
        refine ⟨k + 1, (rr, ttl) :: recs, at_, by omega, .cons (parseWirePacketRR_iff.mp hp) hr, hu, ?_⟩
        rw [List.filter_cons_of_neg (by simpa [← hk] using hkeep)]
        exact ⟨ha.proof, ha.names, ha.minTtl⟩

theorem handleResponse_err {proof proof' : Bytes} {names names' : List Name}
    (h : handleResponse dbg resp proof names = ((proof', names'), .err ())) : ∃ recs, Leaves dbg resp recs ∧ proof' = proof ++ encode recs := by
  unfold handleResponse at h
  cases hh : readHeader resp with
  | panic => rw [hh] at h; simp at h
  | err e =>
    rw [hh] at h
    simp only [Prod.mk.injEq, and_true] at h
    refine ⟨[], .header ?_, by simp [encode, h.1]⟩
    rintro ⟨an, ns, body, hg⟩
    obtain ⟨a, n, hg, _⟩ := goodHeader_iff.mp hg
    rw [hg] at hh
    exact nomatch hh
  | ok x =>
    obtain ⟨⟨an, ns⟩, body⟩ := x
    rw [hh] at h
    simp only at h
    have hg : GoodHeader resp an.toNat ns.toNat body := goodHeader_iff.mpr ⟨an, ns, hh, rfl, rfl⟩
    cases ha : answersLoop dbg resp an.toNat ⟨body, proof, names, 0xffffffff⟩ with
    | mk st r =>
      rw [ha] at h
      cases r with
      | panic => simp at h
      | err e =>
        simp only [Prod.mk.injEq, and_true] at h
        obtain ⟨k, recs, at_, hk, hr, hu, hadd⟩ := answersLoop_err ha
        exact ⟨recs, .answer hg hk hr hu, h.1.symm.trans hadd.proof⟩
      | ok u =>
        simp only at h
        obtain ⟨ans, h1, e1⟩ := answersLoop_ok.mp ha
        cases hb : authoritiesLoop dbg resp ns.toNat st with
        | mk st2 r2 =>
          rw [hb] at h
          cases r2 with
          | panic => simp at h
          | ok u => simp at h
          | err e =>
            simp only [Prod.mk.injEq, and_true] at h
            obtain ⟨k, recs, at_, hk, hr, hu, hadd⟩ := authoritiesLoop_err hb
            exact ⟨_, .authority hg h1 hk hr hu, h.1.symm.trans (added_trans e1 hadd).proof⟩

/-! ### There is only one such list -/

theorem goodHeader_unique {an an' ns ns' : Nat} {body body' : Bytes} (h : GoodHeader resp an ns body) (h' : GoodHeader resp an' ns' body') :
    an = an' ∧ ns = ns' ∧ body = body' := by
  obtain ⟨a, n, g, rfl, rfl⟩ := goodHeader_iff.mp h
  obtain ⟨a', n', g', rfl, rfl⟩ := goodHeader_iff.mp h'
  rw [g] at g'
  simp only [Res.ok.injEq, Prod.mk.injEq] at g'
  obtain ⟨⟨rfl, rfl⟩, rfl⟩ := g'
  exact ⟨rfl, rfl, rfl⟩

theorem records_beyond {k : Nat} {inp at_ : Bytes} {rs : List (RR × UInt32)} (h : Records dbg resp k inp rs at_) (hu : Unreadable dbg resp at_) :
    ∀ {n : Nat} {rs' : List (RR × UInt32)} {rest : Bytes}, Records dbg resp n inp rs' rest → n ≤ k := by
  induction h with
  | nil =>
    intro n rs' rest h'
    cases h' with
    | nil => exact Nat.le_refl _
    | cons g _ => exact absurd g (hu.1 _ _)
  | cons g _ ih =>
    intro n rs' rest h'
    cases h' with
    | nil => omega
    | cons g' h' =>
      have e := parseWirePacketRR_iff.mpr g
      rw [parseWirePacketRR_iff.mpr g'] at e
      simp only [Res.ok.injEq, Prod.mk.injEq] at e
      obtain ⟨_, rfl⟩ := e
      have := ih hu h'
      omega

theorem records_stop {k k' : Nat} {inp at_ at_' : Bytes} {rs rs' : List (RR × UInt32)} (h : Records dbg resp k inp rs at_)
    (hu : Unreadable dbg resp at_) (h' : Records dbg resp k' inp rs' at_') (hu' : Unreadable dbg resp at_') : rs = rs' := by
  have h1 := records_beyond h hu h'
  have h2 := records_beyond h' hu' h
  obtain rfl : k = k' := by omega
  exact (records_unique h h').1

theorem leaves_unique {recs recs' : List (RR × UInt32)} (h : Leaves dbg resp recs) (h' : Leaves dbg resp recs') : recs = recs' := by
  cases h with
  | header h =>
    cases h' with
    | header => rfl
    | answer g => exact absurd ⟨_, _, _, g⟩ h
    | authority g => exact absurd ⟨_, _, _, g⟩ h
  | answer g hk hr hu =>
    cases h' with
    | header h => exact absurd ⟨_, _, _, g⟩ h
    | answer g' _ hr' hu' =>
      obtain ⟨rfl, rfl, rfl⟩ := goodHeader_unique g g'
      exact records_stop hr hu hr' hu'
    | authority g' h1 =>
      obtain ⟨rfl, rfl, rfl⟩ := goodHeader_unique g g'
      have := records_beyond hr hu h1
      omega
  | authority g h1 _ hr hu =>
    cases h' with
    | header h => exact absurd ⟨_, _, _, g⟩ h
    | answer g' hk' hr' hu' =>
      obtain ⟨rfl, rfl, rfl⟩ := goodHeader_unique g g'
      have := records_beyond hr' hu' h1
      omega
    | authority g' h1' _ hr' hu' =>
      obtain ⟨rfl, rfl, rfl⟩ := goodHeader_unique g g'
      obtain ⟨rfl, rfl⟩ := records_unique h1 h1'
      rw [records_stop hr hu hr' hu']

theorem contributes_header {recs : List (RR × UInt32)} (h : Contributes dbg resp recs) : ∃ an ns body mid rest ans auth,
    GoodHeader resp an ns body ∧ Records dbg resp an body ans mid ∧ Records dbg resp ns mid auth rest := by
  obtain ⟨fl, an, ns, ar, qn, qt, qc, body, mid, rest, ans, auth, h1, h2, h3, h4, h5, h6, h7, h8, h9, _⟩ := h
  exact ⟨an.toNat, ns.toNat, body, mid, rest, ans, auth, ⟨fl, an, ns, ar, qn, qt, qc, h1, h2, h3, h4, h5, h6, h7, rfl, rfl⟩, h8, h9⟩

/-- A response leaves something behind only if it is neither acceptable nor panics. -/
theorem leaves_not_contributes {recs recs' : List (RR × UInt32)} (h : Leaves dbg resp recs) : ¬ Contributes dbg resp recs' := by
  intro hc
  obtain ⟨an, ns, body, mid, rest, ans, auth, g', h1, h2⟩ := contributes_header hc
  cases h with
  | header h => exact h ⟨_, _, _, g'⟩
  | answer g hk hr hu =>
    obtain ⟨rfl, rfl, rfl⟩ := goodHeader_unique g g'
    have := records_beyond hr hu h1
    omega
  | authority g h1' hk hr hu =>
    obtain ⟨rfl, rfl, rfl⟩ := goodHeader_unique g g'
    obtain ⟨rfl, rfl⟩ := records_unique h1' h1
    have := records_beyond hr hu h2
    omega

theorem unreadable_panics {k k' : Nat} {inp at_ at_' : Bytes} {rs rs' : List (RR × UInt32)} (h : Records dbg resp k inp rs at_)
    (hu : Unreadable dbg resp at_) (h' : Records dbg resp k' inp rs' at_') (hp : RecordPanics dbg resp at_') : False := by
  have h1 := records_beyond h hu h'
  obtain ⟨l, rfl⟩ := Nat.exists_eq_add_of_le h1
  obtain ⟨r1, r2, mid, a, b⟩ := records_split h
  obtain ⟨_, rfl⟩ := records_unique h' a
  cases b with
  | nil => exact hu.2 hp
  | cons g _ =>
    have := parseWirePacketRR_iff.mpr g
    rw [recordPanics_iff.mpr hp] at this
    exact nomatch this

theorem leaves_not_panics {recs : List (RR × UInt32)} (h : Leaves dbg resp recs) : ¬ MessagePanics dbg resp := by
  rintro ⟨fl, an, ns, ar, qn, qt, qc, body, recs', m, k, h1, h2, h3, h4, h5, h6, h7, hk, hr', hp⟩
  have g' : GoodHeader resp an.toNat ns.toNat body := ⟨fl, an, ns, ar, qn, qt, qc, h1, h2, h3, h4, h5, h6, h7, rfl, rfl⟩
  cases h with
  | header h => exact h ⟨_, _, _, g'⟩
  | answer g _ hr hu =>
    obtain ⟨rfl, rfl, rfl⟩ := goodHeader_unique g g'
    exact unreadable_panics hr hu hr' hp
  | authority g h1' _ hr hu =>
    obtain ⟨rfl, rfl, rfl⟩ := goodHeader_unique g g'
    exact unreadable_panics (records_append h1' hr) hu hr' hp

namespace ProofBuilder

theorem processResponse_err_iff {b b' : ProofBuilder} : b.processResponse dbg resp = (b', .err ()) ↔
    b.pending = 0 ∧ b' = b ∨ 0 < b.pending ∧ ∃ recs, Leaves dbg resp recs ∧ b' = { b with proof := b.proof ++ encode recs } := by
  have fwd : ∀ b', 0 < b.pending → b.processResponse dbg resp = (b', .err ()) →
      ∃ recs, Leaves dbg resp recs ∧ b' = { b with proof := b.proof ++ encode recs } := by
    intro b' hp h
    unfold processResponse at h
    rw [if_neg (by omega)] at h
    cases hh : handleResponse dbg resp b.proof [] with
    | mk pn r =>
      obtain ⟨proof, names⟩ := pn
      rw [hh] at h
      cases r with
      | panic => simp at h
      | ok t =>
        simp only at h
        split at h <;> simp at h
      | err e =>
        simp only [Prod.mk.injEq, and_true] at h
        obtain ⟨recs, h1, h2⟩ := handleResponse_err hh
        exact ⟨recs, h1, by rw [← h, h2]⟩
  constructor
  · intro h
    by_cases hp : b.pending = 0
    · unfold processResponse at h
      rw [if_pos hp] at h
      simp only [Prod.mk.injEq, and_true] at h
      exact Or.inl ⟨hp, h.symm⟩
    · exact Or.inr ⟨by omega, fwd b' (by omega) h⟩
  · rintro (⟨hp, rfl⟩ | ⟨hp, recs, hl, rfl⟩)
    · unfold processResponse
      rw [if_pos hp]
    · cases hr : b.processResponse dbg resp with
      | mk b2 r =>
        cases r with
        | ok more =>
          obtain ⟨recs', _, _, _, hc, _⟩ := processResponse_ok hr
          exact absurd hc (leaves_not_contributes hl)
        | panic => exact absurd ((processResponse_panic_iff).mp (by rw [hr])).2 (leaves_not_panics hl)
        | err e =>
          obtain ⟨recs', h1, h2⟩ := fwd b2 hp hr
          obtain rfl := leaves_unique hl h1
          rw [h2]

end ProofBuilder

end Dnssec
