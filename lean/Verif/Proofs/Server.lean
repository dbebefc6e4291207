import Verif.Spec.Server
import Verif.Proofs.Builder
import Verif.Proofs.Http

/-! # Panics of the proof builder, its driver and the server -/

namespace Dnssec

open Spec

variable {dbg : Bool} {resp : Bytes} {name : Name} {ty : UInt16}

theorem recordPanics_iff {msg inp : Bytes} : parseWirePacketRR dbg msg inp = .panic ↔ RecordPanics dbg msg inp := by
  unfold RecordPanics
  simp only [parseWirePacketRR_panic_iff, readName_reads]

theorem records_succ_panic {n : Nat} {inp : Bytes} :
    (∃ k recs m, k < n + 1 ∧ Records dbg resp k inp recs m ∧ RecordPanics dbg resp m) ↔
      RecordPanics dbg resp inp ∨ ∃ r mid, parseWirePacketRR dbg resp inp = .ok (r, mid) ∧
        ∃ k recs m, k < n ∧ Records dbg resp k mid recs m ∧ RecordPanics dbg resp m := by
  constructor
  · rintro ⟨k, recs, m, hk, hr, hp⟩
    cases hr with
    | nil => exact Or.inl hp
    | cons h1 h2 => exact Or.inr ⟨_, _, parseWirePacketRR_iff.mpr h1, _, _, _, by omega, h2, hp⟩
  · rintro (h | ⟨r, mid, h1, k, recs, m, hk, h2, hp⟩)
    · exact ⟨0, [], inp, by omega, .nil _, h⟩
    · exact ⟨k + 1, _, m, by omega, .cons (parseWirePacketRR_iff.mp h1) h2, hp⟩

theorem answersLoop_panic {n : Nat} : ∀ {st : HState}, (answersLoop dbg resp n st).2 = .panic ↔
    ∃ k recs m, k < n ∧ Records dbg resp k st.read recs m ∧ RecordPanics dbg resp m := by
  induction n with
  | zero => intro st; simp [answersLoop]
  | succ n ih =>
    intro st
    rw [records_succ_panic, answersLoop, ← recordPanics_iff]
    cases hp : parseWirePacketRR dbg resp st.read with
    | panic => simp
    | err e => simp
    | ok x =>
      obtain ⟨⟨rr, ttl⟩, rd⟩ := x
      simp only [ih]
      constructor
      · intro h; exact Or.inr ⟨_, _, rfl, h⟩
      · rintro (h | ⟨r, mid, h1, h2⟩)
        · exact nomatch h
        · simp only [Res.ok.injEq, Prod.mk.injEq] at h1
          obtain ⟨_, rfl⟩ := h1
          exact h2

theorem authoritiesLoop_panic {n : Nat} : ∀ {st : HState}, (authoritiesLoop dbg resp n st).2 = .panic ↔
    ∃ k recs m, k < n ∧ Records dbg resp k st.read recs m ∧ RecordPanics dbg resp m := by
  induction n with
  | zero => intro st; simp [authoritiesLoop]
  | succ n ih =>
    intro st
    rw [records_succ_panic, authoritiesLoop, ← recordPanics_iff]
    cases hp : parseWirePacketRR dbg resp st.read with
    | panic => simp
    | err e => simp
    | ok x =>
      obtain ⟨⟨rr, ttl⟩, rd⟩ := x
      have e : (if keepAuthority rr = true then authoritiesLoop dbg resp n ({ st with read := rd }.add rr ttl)
          else authoritiesLoop dbg resp n { st with read := rd }).2 = .panic ↔
          ∃ k recs m, k < n ∧ Records dbg resp k rd recs m ∧ RecordPanics dbg resp m := by
        split <;> exact ih
      simp only [e]
      constructor
      · intro h; exact Or.inr ⟨_, _, rfl, h⟩
      · rintro (h | ⟨r, mid, h1, h2⟩)
        · exact nomatch h
        · simp only [Res.ok.injEq, Prod.mk.injEq] at h1
          obtain ⟨_, rfl⟩ := h1
          exact h2

theorem records_append {k l : Nat} {inp mid rest : Bytes} {r1 r2 : List (RR × UInt32)} (h : Records dbg resp k inp r1 mid)
    (h2 : Records dbg resp l mid r2 rest) : Records dbg resp (k + l) inp (r1 ++ r2) rest := by
  induction h with
  | nil => simpa using h2
  | cons g _ ih =>
    rw [Nat.add_right_comm]
    exact .cons g (ih h2)

theorem records_split : ∀ {k l : Nat} {inp rest : Bytes} {rs : List (RR × UInt32)}, Records dbg resp (k + l) inp rs rest →
    ∃ r1 r2 mid, Records dbg resp k inp r1 mid ∧ Records dbg resp l mid r2 rest
  | 0, l, inp, rest, rs, h => ⟨[], rs, inp, .nil _, by simpa using h⟩
  | k + 1, l, inp, rest, rs, h => by
    rw [Nat.add_right_comm] at h
    cases h with
    | cons g h =>
      obtain ⟨r1, r2, mid, a, b⟩ := records_split h
      exact ⟨_, r2, mid, .cons g a, b⟩

theorem readHeader_no_panic (resp : Bytes) : readHeader resp ≠ .panic := by
  have u16 : ∀ x, readU16 x ≠ .panic := by
    intro x h
    unfold readU16 at h
    split at h <;> simp at h
  have nm : ∀ x, readName resp x ≠ .panic := fun x => readName_no_panic resp x
  intro h
  unfold readHeader at h
  simp only [Res.bind_panic_iff, u16, false_or] at h
  repeat' first
    | (obtain ⟨_, _, h⟩ := h)
    | (split at h; (first | exact nomatch h | skip))
    | (simp only [Res.bind_panic_iff, u16, nm, false_or] at h)
  all_goals first | exact nomatch h | skip

theorem handleResponse_panic_iff {proof : Bytes} {names : List Name} :
    (handleResponse dbg resp proof names).2 = .panic ↔ MessagePanics dbg resp := by
  unfold handleResponse
  cases hh : readHeader resp with
  | panic => exact absurd hh (readHeader_no_panic resp)
  | err e =>
    simp only [reduceCtorEq, false_iff]
    rintro ⟨fl, an, ns, ar, qn, qt, qc, body, recs, m, k, h1, h2, h3, h4, h5, h6, h7, _⟩
    rw [(readHeader_iff resp an ns body).mpr ⟨fl, ar, qn, qt, qc, h1, h2, h3, h4, h5, h6, h7⟩] at hh
    exact nomatch hh
  | ok x =>
    obtain ⟨⟨an, ns⟩, body⟩ := x
    obtain ⟨fl, ar, qn, qt, qc, h1, h2, h3, h4, h5, h6, h7⟩ := (readHeader_iff resp an ns body).mp hh
    have key : MessagePanics dbg resp ↔
        ∃ k recs m, k < an.toNat + ns.toNat ∧ Records dbg resp k body recs m ∧ RecordPanics dbg resp m := by
      constructor
      · rintro ⟨fl', an', ns', ar', qn', qt', qc', body', recs, m, k, h1', _, _, _, _, _, _, hk, hr, hp⟩
        obtain ⟨rfl, rfl, rfl⟩ := isMessage_body h1 h1'
        exact ⟨k, recs, m, hk, hr, hp⟩
      · rintro ⟨k, recs, m, hk, hr, hp⟩
        exact ⟨fl, an, ns, ar, qn, qt, qc, body, recs, m, k, h1, h2, h3, h4, h5, h6, h7, hk, hr, hp⟩
    rw [key]
    simp only
    have ha := answersLoop_panic (dbg := dbg) (resp := resp) (n := an.toNat) (st := ⟨body, proof, names, 0xffffffff⟩)
    cases hans : answersLoop dbg resp an.toNat ⟨body, proof, names, 0xffffffff⟩ with
    | mk st r =>
      rw [hans] at ha
      simp only at ha
      cases r with
      | panic =>
        simp only [true_iff]
        obtain ⟨k, recs, m, hk, hr, hp⟩ := ha.mp rfl
        exact ⟨k, recs, m, by omega, hr, hp⟩
      | err e =>
        simp only [reduceCtorEq, false_iff]
        rintro ⟨k, recs, m, hk, hr, hp⟩
        by_cases hlt : k < an.toNat
        · exact absurd (ha.mpr ⟨k, recs, m, hlt, hr, hp⟩) (by simp)
        · obtain ⟨l, rfl⟩ := Nat.exists_eq_add_of_le (Nat.le_of_not_lt hlt)
          obtain ⟨r1, r2, mid, a, _⟩ := records_split hr
          have : ∃ st', answersLoop dbg resp an.toNat ⟨body, proof, names, 0xffffffff⟩ = (st', .ok ()) := by
            refine ⟨⟨mid, proof ++ encode r1, names ++ signers r1, r1.foldl (fun t r => min t r.2) 0xffffffff⟩,
              answersLoop_ok.mpr ⟨r1, a, ⟨rfl, rfl, rfl⟩⟩⟩
          obtain ⟨st', e⟩ := this
          rw [hans] at e
          simp at e
      | ok u =>
        obtain ⟨r1, a, _⟩ := answersLoop_ok.mp hans
        simp only at a ⊢
        have hb := authoritiesLoop_panic (dbg := dbg) (resp := resp) (n := ns.toNat) (st := st)
        have e : (match authoritiesLoop dbg resp ns.toNat st with
            | (st, .err ()) => ((st.proof, st.names), Res.err ())
            | (st, .panic) => ((st.proof, st.names), Res.panic)
            | (st, .ok ()) => ((st.proof, st.names), Res.ok st.minTtl)).2 = (.panic : Res Unit UInt32) ↔
            (authoritiesLoop dbg resp ns.toNat st).2 = .panic := by
          cases h : authoritiesLoop dbg resp ns.toNat st with
          | mk st r => cases r <;> simp
        refine (Iff.trans ?_ hb).trans ?_
        · exact e
        · constructor
          · rintro ⟨k, recs, m, hk, hr, hp⟩
            exact ⟨an.toNat + k, _, m, by omega, records_append a hr, hp⟩
          · rintro ⟨k, recs, m, hk, hr, hp⟩
            by_cases hlt : k < an.toNat
            · exact absurd (ha.mpr ⟨k, recs, m, hlt, hr, hp⟩) (by simp)
            · obtain ⟨l, rfl⟩ := Nat.exists_eq_add_of_le (Nat.le_of_not_lt hlt)
              obtain ⟨r1', r2, mid, a', b'⟩ := records_split hr
              obtain ⟨_, rfl⟩ := records_unique a a'
              exact ⟨l, r2, m, by omega, b', hp⟩

theorem processResponse_panic_iff {b : ProofBuilder} :
    (b.processResponse dbg resp).2 = .panic ↔ 0 < b.pending ∧ MessagePanics dbg resp := by
  unfold ProofBuilder.processResponse
  rw [← handleResponse_panic_iff (proof := b.proof) (names := [])]
  split
  · rename_i h; simp [h]
  · rename_i h
    have hp : 0 < b.pending := by omega
    cases hh : handleResponse dbg resp b.proof [] with
    | mk x r =>
      cases r with
      | panic => simp [hp]
      | err e => simp
      | ok t =>
        simp only [reduceCtorEq, and_false, iff_false]
        split <;> simp

/-! ### The driver -/

theorem sendAll_writes {qs : List Bytes} : ∀ {s s' : Stream}, (∀ q ∈ qs, q.length ≤ 65535) → sendAll s qs = some s' →
    s.writesLeft = s'.writesLeft + 2 * qs.length := by
  induction qs with
  | nil => intro s s' _ h; simp only [sendAll, Option.some.injEq] at h; subst h; simp
  | cons q qs ih =>
    intro s s' hl h
    rw [sendAll] at h
    split at h
    · simp at h
    · rename_i s1 h1
      obtain ⟨_, _, c⟩ := sendQuery_frame (hl q (by simp)) h1
      have := ih (fun q hq => hl q (by simp [hq])) h
      simp only [List.length_cons]
      omega

theorem readResponse_writes {s s' : Stream} {m : Bytes} (h : readResponse s = some (m, s')) : s'.writesLeft = s.writesLeft := by
  unfold readResponse Stream.readExact at h
  split at h
  · rename_i a b s1 h1
    split at h1
    · simp at h1
    · simp only [Option.some.injEq, Prod.mk.injEq] at h1
      obtain ⟨_, rfl⟩ := h1
      split at h
      · simp at h
      · simp only [Option.some.injEq, Prod.mk.injEq] at h
        obtain ⟨_, rfl⟩ := h
        rfl
  · simp at h

theorem driveLoop_panic (hn : Obtainable name) {s' : Stream} : ∀ (fuel : Nat) (b : ProofBuilder) (s : Stream)
    (acc qs : List Bytes), Run dbg name ty acc [] qs b → driveLoop dbg fuel b s = some (s', .panic) →
    ∃ acc' qs' b' m, Run dbg name ty (acc ++ acc') [] (qs ++ qs') b' ∧ b'.awaiting = true ∧ MessagePanics dbg m ∧
      s.incoming = (acc'.map frame).flatten ++ (frame m ++ s'.incoming) ∧ 2 * qs'.length ≤ s.writesLeft ∧
      ∀ x ∈ m :: acc', x.length ≤ 65535
  | fuel, b, s, acc, qs, hrun, h => by
    by_cases ha : b.awaiting = true
    · cases fuel with
      | zero => rw [driveLoop, if_pos ha] at h; simp at h
      | succ fuel =>
        rw [driveLoop, if_pos ha] at h
        split at h
        · simp at h
        · rename_i resp s1 hr
          obtain ⟨i1, i2, i3⟩ := readResponse_some hr
          have i4 := readResponse_writes hr
          split at h
          · simp at h
          · rename_i b1 hp
            simp only [Option.some.injEq, Prod.mk.injEq, and_true] at h
            subst h
            have := (processResponse_panic_iff (dbg := dbg) (resp := resp) (b := b)).mp (by rw [hp])
            exact ⟨[], [], b, resp, by simpa using hrun, ha, this.2, by simpa using i1, by simp, by simpa using i2⟩
          · rename_i b1 more hp
            split at h
            · simp at h
            · rename_i s2 hs
              have hlen := run_query_length hn (Run.accept hrun hp)
              have hl : ∀ q ∈ more, q.length ≤ 65535 := fun q hq => Nat.le_trans (hlen q (by simp [hq])) (by decide)
              obtain ⟨j1, j2⟩ := sendAll_frames hl hs
              have j3 := sendAll_writes hl hs
              obtain ⟨acc', qs', b', m, r1, r2, r3, r4, r5, r6⟩ := driveLoop_panic hn fuel b1 s2 _ _ (Run.accept hrun hp) h
              refine ⟨resp :: acc', more ++ qs', b', m, ?_, r2, r3, ?_, ?_, ?_⟩
              · rw [List.append_assoc, List.append_assoc] at r1
                exact r1
              · rw [i1, ← j2, r4]; simp
              · rw [List.length_append]; omega
              · intro x hx
                simp only [List.mem_cons] at hx
                rcases hx with rfl | rfl | hx
                · exact r6 _ (by simp)
                · exact i2
                · exact r6 x (by simp [hx])
    · have h : (match b.finish with | some r => some (s, .ok r) | none => some (s, .err ())) =
          some (s', (.panic : Res Unit (Bytes × UInt32))) := by
        cases fuel <;> (rw [driveLoop, if_neg ha] at h; exact h)
      split at h <;> simp at h

/-- The driver panics iff the peer sends a message that panics after some accepted ones. -/
theorem buildProof_panic_iff (hn : Obtainable name) {s : Stream} :
    (∃ s', buildProof dbg 10 s name ty = some (s', .panic)) ↔
      ∃ acc qs b m rest, Run dbg name ty acc [] qs b ∧ b.awaiting = true ∧ MessagePanics dbg m ∧
        s.incoming = (acc.map frame).flatten ++ (frame m ++ rest) ∧ 2 * qs.length ≤ s.writesLeft ∧ ∀ x ∈ m :: acc, x.length ≤ 65535 := by
  constructor
  · rintro ⟨s', h⟩
    unfold buildProof at h
    simp only at h
    split at h
    · simp at h
    · rename_i s1 hs
      have hq : (queryBytes name ty).length ≤ 65535 := Nat.le_trans (queryBytes_length _ _ hn.short) (by decide)
      obtain ⟨a1, a2, a3⟩ := sendQuery_frame hq hs
      obtain ⟨acc', qs', b', m, r1, r2, r3, r4, r5, r6⟩ := driveLoop_panic hn _ _ _ _ _ Run.new h
      refine ⟨acc', _, b', m, s'.incoming, r1, r2, r3, by rw [← a2]; exact r4, ?_, r6⟩
      simp only [List.length_append, List.length_singleton]
      omega
  · rintro ⟨acc, qs, b, m, rest, hrun, ha, hm, e, hw, hlen⟩
    obtain ⟨inc, w, sent⟩ := s
    simp only at e hw
    subst e
    obtain ⟨w', rfl⟩ := Nat.exists_eq_add_of_le hw
    have ha' := ha
    simp only [ProofBuilder.awaiting, maxRequests, Bool.and_eq_true, decide_eq_true_eq] at ha'
    have hpend := (run_inv hrun).pending
    have := buildProof_follows hn hrun rfl (fun x hx => hlen x (by simp [hx])) ha'.2 (10 - acc.length) w' (frame m ++ rest) sent
    rw [show acc.length + (10 - acc.length) = 10 by omega] at this
    rw [this]
    obtain ⟨f, hf⟩ : ∃ f, 10 - acc.length = f + 1 := ⟨9 - acc.length, by omega⟩
    rw [hf, driveLoop, if_pos ha, readResponse_frame m rest _ _ (hlen m (by simp))]
    simp only
    have hp := (processResponse_panic_iff (dbg := dbg) (resp := m) (b := b)).mpr ⟨ha'.1, hm⟩
    cases hh : b.processResponse dbg m with
    | mk b' r =>
      rw [hh] at hp
      simp only at hp
      subst hp
      exact ⟨_, rfl⟩

/-! ### The server -/

/-- The resolver of `serve` that `serveTcp` uses, except for panics. -/
def tcpResolver (dbg : Bool) (conn : Option Stream) (name : Name) (ty : UInt16) : Option (Bytes × UInt32) :=
  match lookupTcp dbg conn name ty with
  | .ok r => some r
  | _ => none

/-- `serveTcp` does what `serve` does unless the lookup panics. -/
theorem serveTcp_eq (conn : Option Stream) (evs : List SockEvent) :
    (serveTcp dbg conn evs = serve dbg (tcpResolver dbg conn) evs ∧
      ∀ n t out, serve dbg (tcpResolver dbg conn) evs = .done [(n, t)] out → lookupTcp dbg conn n t ≠ .panic) ∨
    (serveTcp dbg conn evs = .panicked ∧
      ∃ n t out, serve dbg (tcpResolver dbg conn) evs = .done [(n, t)] out ∧ lookupTcp dbg conn n t = .panic) := by
  unfold serveTcp serve
  cases readRequest [] evs with
  | closed => exact Or.inl ⟨rfl, by simp⟩
  | tooLarge => exact Or.inl ⟨rfl, by simp [answer]⟩
  | request buf =>
    simp only
    cases decideBuf dbg buf with
    | none => exact Or.inl ⟨rfl, by simp⟩
    | some d =>
      cases d with
      | reject s m => exact Or.inl ⟨rfl, by simp [answer]⟩
      | lookup n t =>
        simp only [answer]
        cases h : lookupTcp dbg conn n t with
        | panic =>
          have : tcpResolver dbg conn n t = none := by simp only [tcpResolver, h]
          rw [this]
          exact Or.inr ⟨rfl, n, t, _, rfl, h⟩
        | err e =>
          refine Or.inl ⟨by simp only [tcpResolver, h], fun n' t' out e => ?_⟩
          simp only [tcpResolver, h, Served.done.injEq, List.cons.injEq, Prod.mk.injEq, and_true] at e
          rw [← e.1.1, ← e.1.2, h]; simp
        | ok r =>
          refine Or.inl ⟨by simp only [tcpResolver, h], fun n' t' out e => ?_⟩
          simp only [tcpResolver, h, Served.done.injEq, List.cons.injEq, Prod.mk.injEq, and_true] at e
          rw [← e.1.1, ← e.1.2, h]; simp

theorem lookupTcp_panic {conn : Option Stream} : lookupTcp dbg conn name ty = .panic ↔
    ∃ s, conn = some s ∧ ∃ s', buildProof dbg 10 s name ty = some (s', .panic) := by
  unfold lookupTcp
  cases conn with
  | none => simp
  | some s =>
    simp only [Option.some.injEq, exists_eq_left']
    cases h : buildProof dbg 10 s name ty with
    | none => simp
    | some p => obtain ⟨s', r⟩ := p; simp

theorem lookupTcp_ok {conn : Option Stream} {r : Bytes × UInt32} : lookupTcp dbg conn name ty = .ok r ↔
    ∃ s, conn = some s ∧ ∃ s', buildProof dbg 10 s name ty = some (s', .ok r) := by
  unfold lookupTcp
  cases conn with
  | none => simp
  | some s =>
    simp only [Option.some.injEq, exists_eq_left']
    cases h : buildProof dbg 10 s name ty with
    | none => simp
    | some p => obtain ⟨s', r'⟩ := p; simp

end Dnssec
