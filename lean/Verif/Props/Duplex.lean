import Verif.Proofs.Duplex
import Verif.Props.Query

/-! # C110: building a proof over TCP does not deadlock -/

namespace Dnssec.Props

open Dnssec Dnssec.Spec

variable {dbg : Bool} {name : Name} {ty : UInt16} {roomR roomD n : Nat} {x : Exchange}

private theorem frames_le (k : Nat) : ∀ {ms : List Bytes}, (∀ m ∈ ms, m.length ≤ k) → (frames ms).length ≤ (k + 2) * ms.length
  | [], _ => by simp [frames]
  | m :: ms, h => by
    have h1 := frames_le k (fun x hx => h x (List.mem_cons_of_mem m hx))
    have h2 := h m (by simp)
    rw [frames_cons, List.length_append, List.length_cons, Nat.mul_succ]
    have : (frame m).length = m.length + 2 := by simp [frame]
    omega

private theorem written_le {acc qs : List Bytes} (inv : ExInv dbg name ty n x acc qs) :
    (frames x.queries).length + (x.partialQuery.length + (x.toResolver.length + x.driver.left.length)) ≤ 2850 := by
  have h1 := frames_le 283 inv.short
  have h2 := congrArg List.length inv.out
  have h3 := inv.ten
  simp only [List.length_append] at h2
  omega

private theorem seen_le {acc qs : List Bytes} (inv : ExInv dbg name ty n x acc qs) : x.queries.length ≤ qs.length ∧ x.answers.length ≤ 10 := by
  obtain ⟨c, hc, _⟩ := frames_prefix inv.seenShort (fun q hq => Nat.le_trans (inv.short q hq) (by decide)) inv.out
  have := congrArg List.length hc
  have := inv.count
  have := inv.ten
  simp only [List.length_append] at *
  omega

/-- A driver that has something to write can write. -/
theorem C110_sending_writes (hn : Obtainable name) (hR : 2850 ≤ roomR) (h : Reaches dbg roomR roomD name ty n x) {b : ProofBuilder} {left : Bytes}
    (hd : x.driver = .sending b left) : ∃ y, Step dbg roomR roomD .driverWrites x y := by
  obtain ⟨acc, qs, inv⟩ := exInv hn h
  have hw := written_le inv
  have hok := inv.driver
  rw [hd] at hok hw
  have hl : 0 < left.length := List.length_pos_iff.mpr hok.2.2
  simp only [TcpDriver.left] at hw
  exact ⟨_, .driverWrites hd Nat.one_pos hl (by omega)⟩

/-- **C110.** Let the connection hold at least 2850 bytes on their way to the resolver and at least one byte on its way back. As long as `build_proof` has not returned, something
can be done: it can write or read; or the resolver can write, or has something to answer, or nothing to write and to answer but something to read. So a resolver
that does these one after the other never has to wait for a driver that waits for the resolver. -/
theorem C110_goes_on (hn : Obtainable name) (hR : 2850 ≤ roomR) (hD : 1 ≤ roomD) (h : Reaches dbg roomR roomD name ty n x) :
    (∃ r, x.driver = .returned r) ∨
    (∃ y, Step dbg roomR roomD .driverWrites x y) ∨ (∃ y, Step dbg roomR roomD .driverReads x y) ∨
    (x.toWrite ≠ [] ∧ ∃ y, Step dbg roomR roomD .resolverWrites x y) ∨
    (x.toWrite = [] ∧ x.owed ≠ []) ∨
    (x.toWrite = [] ∧ x.owed = [] ∧ ∃ y, Step dbg roomR roomD .resolverReads x y) := by
  obtain ⟨acc, qs, inv⟩ := exInv hn h
  match hd : x.driver with
  | .returned r => exact Or.inl ⟨r, rfl⟩
  | .sending b left =>
    exact Or.inr (Or.inl (C110_sending_writes hn hR h hd))
  | .reading b got =>
    have hok := inv.driver
    have hi := inv.inp
    have ho := inv.out
    rw [hd] at hok hi ho
    have hpos := Nat.pos_of_ne_zero hok.2.2
    cases ht : x.toDriver with
    | cons c rest => exact Or.inr (Or.inr (Or.inl ⟨_, .driverReads hd (chunk := [c]) ht (by simp) hpos⟩))
    | nil =>
      cases hw : x.toWrite with
      | cons c rest => exact Or.inr (Or.inr (Or.inr (Or.inl ⟨by simp, _, .resolverWrites (chunk := [c]) hw (by simp) (by rw [ht]; simpa using hD)⟩)))
      | nil =>
        cases hown : x.owed with
        | cons q owed => exact Or.inr (Or.inr (Or.inr (Or.inr (Or.inl ⟨rfl, by simp⟩))))
        | nil =>
          cases hr : x.toResolver with
          | cons c rest =>
            refine Or.inr (Or.inr (Or.inr (Or.inr (Or.inr ⟨rfl, rfl, ?_⟩))))
            have hp := Nat.pos_of_ne_zero inv.incomplete
            by_cases h0 : stillToRead (x.partialQuery ++ [c]) = 0
            · obtain ⟨e1, e2⟩ := complete_frame (chunk := [c]) inv.incomplete hp h0
              exact ⟨_, .resolverReadsLast hr (by simp) e2 e1⟩
            · exact ⟨_, .resolverReads (chunk := [c]) hr (by simp) hp h0⟩
          | nil =>
            exfalso
            rw [ht, hw] at hi
            rw [hr] at ho
            simp only [TcpDriver.got, TcpDriver.left, List.append_nil] at hi ho
            have hqs : ∀ q ∈ qs, q.length ≤ 65535 := fun q hq => Nat.le_trans (inv.short q hq) (by decide)
            obtain ⟨c, e1, e2⟩ := frames_prefix inv.accShort inv.answersShort hi
            have := incomplete_frames hok.2.2 (fun m hm => inv.answersShort m (by rw [e1]; simp [hm])) e2
            obtain ⟨d, f1, f2⟩ := frames_prefix inv.seenShort hqs ho
            have := incomplete_frames inv.incomplete (fun m hm => hqs m (by rw [f1]; simp [hm])) f2
            subst c d
            rw [List.append_nil] at e1 f1
            have hc := inv.count
            rw [hown, e1, ← f1, List.length_nil] at hc
            have := (run_awaits hok.1 hok.2.1).1
            omega

/-- **C110.** Nothing goes on forever: whatever the interleaving, the sizes of the pieces, the responses and the buffers, there are at most 1316450 steps. -/
theorem C110_ends (hn : Obtainable name) (h : Reaches dbg roomR roomD name ty n x) : n ≤ 1316450 := by
  obtain ⟨acc, qs, inv⟩ := exInv hn h
  have h1 := written_le inv
  obtain ⟨_, h2⟩ := seen_le inv
  have h3 := frames_le 65535 inv.answersShort
  have h4 := congrArg List.length inv.inp
  have h5 := inv.steps
  simp only [List.length_append] at h4 h5
  omega

/-- **C110.** What it returns is what the function of C42, C44 and C47 returns (`build_proof` without buffers) when the peer sends the first of the responses that the
resolver made, in the order in which it made them; and what has been written to the resolver is what that function writes. -/
theorem C110_result (hn : Obtainable name) (h : Reaches dbg roomR roomD name ty n x) {r : Res Unit (Bytes × UInt32)} (hr : x.driver = .returned r) :
    ∃ responses, responses <+: x.answers ∧
      ∀ (rest sent : Bytes) (writes : Nat), ∃ left, buildProof dbg 10 ⟨(responses.map frame).flatten ++ rest, 20 + writes, sent⟩ name ty =
        some (⟨rest, left, sent ++ ((x.queries.map frame).flatten ++ x.partialQuery ++ x.toResolver)⟩, r) := by
  obtain ⟨acc, qs, inv⟩ := exInv hn h
  have hok := inv.driver
  rw [hr] at hok
  obtain ⟨c, e, _⟩ := frames_prefix inv.accShort inv.answersShort inv.inp
  have ho := inv.out
  rw [hr] at ho
  simp only [TcpDriver.left, List.append_nil] at ho
  refine ⟨acc, ⟨c, e.symm⟩, ?_⟩
  rw [List.append_assoc, show (x.queries.map frame).flatten = frames x.queries from rfl, ho]
  exact hok

/-- **C110, in all:** every execution that cannot be continued has returned, with that result; and there are no infinite ones. -/
theorem C110_returns (hn : Obtainable name) (hR : 2850 ≤ roomR) (hD : 1 ≤ roomD) (h : Reaches dbg roomR roomD name ty n x)
    (hmax : ∀ a y, ¬ Step dbg roomR roomD a x y) :
    ∃ r responses, x.driver = .returned r ∧ responses <+: x.answers ∧
      ∀ (rest sent : Bytes) (writes : Nat), ∃ left, buildProof dbg 10 ⟨(responses.map frame).flatten ++ rest, 20 + writes, sent⟩ name ty =
        some (⟨rest, left, sent ++ ((x.queries.map frame).flatten ++ x.partialQuery ++ x.toResolver)⟩, r) := by
  rcases C110_goes_on hn hR hD h with ⟨r, hr⟩ | ⟨y, hy⟩ | ⟨y, hy⟩ | ⟨_, y, hy⟩ | ⟨_, ho⟩ | ⟨_, _, y, hy⟩
  · obtain ⟨rs, h1, h2⟩ := C110_result hn h hr
    exact ⟨r, rs, hr, h1, h2⟩
  · exact absurd hy (hmax _ _)
  · exact absurd hy (hmax _ _)
  · exact absurd hy (hmax _ _)
  · cases e : x.owed with
    | nil => exact absurd e ho
    | cons q qs => exact absurd (.resolverAnswers (before := []) (response := []) e (by simp)) (hmax _ _)
  · exact absurd hy (hmax _ _)

/-! ### An execution that returns a proof, and one that deadlocks because the buffers are too small -/

/-- The name in the examples. -/
private def exName : Name := ⟨ascii "a.example.com."⟩
/-- A response with one record and no signature. -/
private def exShort : Bytes := exResponse 0x81a0 1 (writeRR exTxt 300)

private theorem next {y y' : Exchange} {a : Actor} (h : Reaches dbg roomR roomD name ty n x) (s : Step dbg roomR roomD a x y) (e : y = y') :
    Reaches dbg roomR roomD name ty (n + 1) y' := e ▸ h.step s

/-- The query is written in two pieces and read in two, and the response is written in one and read in two. -/
example : Reaches true 4096 1024 exName 16 8 ⟨.returned (.ok (writeRR exTxt 300, 300)), [], [], [], [queryBytes exName 16], [], [exShort], []⟩ := by
  have s0 := Reaches.start (dbg := true) (roomR := 4096) (roomD := 1024) (name := exName) (ty := 16)
  have s1 := next (y' := ⟨.sending exBuilder ((frame (queryBytes exName 16)).drop 20), (frame (queryBytes exName 16)).take 20, [], [], [], [], [], []⟩) s0
    (.driverWrites (b := exBuilder) (left := frame (queryBytes exName 16)) (k := 20) (by decide +kernel) (by decide) (by decide +kernel) (by decide +kernel)) (by decide +kernel)
  have s2 := next (y' := ⟨.reading exBuilder [], frame (queryBytes exName 16), [], [], [], [], [], []⟩) s1
    (.driverWrites (k := 24) rfl (by decide) (by decide +kernel) (by decide +kernel)) (by decide +kernel)
  have s3 := next (y' := ⟨.reading exBuilder [], queryBytes exName 16, [], [0, 42], [], [], [], []⟩) s2
    (.resolverReads (chunk := [0, 42]) (rest := queryBytes exName 16) (by decide +kernel) (by decide) (by decide +kernel) (by decide +kernel)) (by decide +kernel)
  have s4 := next (y' := ⟨.reading exBuilder [], [], [], [], [queryBytes exName 16], [queryBytes exName 16], [], []⟩) s3
    (.resolverReadsLast (chunk := queryBytes exName 16) (rest := []) (q := queryBytes exName 16) (by decide +kernel) (by decide +kernel) (by decide +kernel)
      (by decide +kernel)) (by decide +kernel)
  have s5 := next (y' := ⟨.reading exBuilder [], [], [], [], [queryBytes exName 16], [], [exShort], frame exShort⟩) s4
    (.resolverAnswers (before := []) (after := []) (q := queryBytes exName 16) (response := exShort) rfl (by decide +kernel)) (by decide +kernel)
  have s6 := next (y' := ⟨.reading exBuilder [], [], frame exShort, [], [queryBytes exName 16], [], [exShort], []⟩) s5
    (.resolverWrites (chunk := frame exShort) (rest := []) (by decide +kernel) (by decide +kernel) (by decide +kernel)) (by decide +kernel)
  have s7 := next (y' := ⟨.reading exBuilder ((frame exShort).take 2), [], (frame exShort).drop 2, [], [queryBytes exName 16], [], [exShort], []⟩) s6
    (.driverReads (b := exBuilder) (got := []) (chunk := (frame exShort).take 2) (rest := (frame exShort).drop 2) rfl (by decide +kernel) (by decide +kernel)
      (by decide +kernel)) (by decide +kernel)
  exact next s7 (.driverReads (b := exBuilder) (got := (frame exShort).take 2) (chunk := (frame exShort).drop 2) (rest := []) rfl (by decide +kernel) (by decide +kernel)
      (by decide +kernel)) (by decide +kernel)

/-- A response with a signature. -/
private def exLong : Bytes := exResponse 0x81a0 2 (writeRR exTxt 300 ++ writeRR exSig 60)
/-- The builder after that response. -/
private def exNext : ProofBuilder := ⟨writeRR exTxt 300 ++ writeRR exSig 60, 60, [⟨ascii "example.com."⟩], 2, 3⟩
/-- The queries it makes. -/
private def exKeys : Bytes := queryBytes ⟨ascii "example.com."⟩ 48
private def exDs : Bytes := queryBytes ⟨ascii "example.com."⟩ 43
/-- A long response. -/
private def exZeros : Bytes := List.replicate 600 0

/-- **C110 needs the room:** with buffers of 41 and 512 bytes there is an execution in which the driver waits until it can write and, with a resolver that writes its
response before it reads on, the resolver does too. -/
theorem C110_room_needed : ∃ n x b left, Reaches true 41 512 exName 16 n x ∧ x.driver = .sending b left ∧ x.toWrite ≠ [] ∧
    ∀ a y, Step true 41 512 a x y → a = .resolverReads ∨ a = .resolverAnswers := by
  have s0 := Reaches.start (dbg := true) (roomR := 41) (roomD := 512) (name := exName) (ty := 16)
  have s1 := next (y' := ⟨.sending exBuilder ((frame (queryBytes exName 16)).drop 41), (frame (queryBytes exName 16)).take 41, [], [], [], [], [], []⟩) s0
    (.driverWrites (b := exBuilder) (left := frame (queryBytes exName 16)) (k := 41) (by decide +kernel) (by decide) (by decide +kernel) (by decide +kernel)) (by decide +kernel)
  have s2 := next (y' := ⟨.sending exBuilder ((frame (queryBytes exName 16)).drop 41), ((frame (queryBytes exName 16)).take 41).drop 1, [], [0], [], [], [], []⟩) s1
    (.resolverReads (chunk := [0]) (rest := ((frame (queryBytes exName 16)).take 41).drop 1) (by decide +kernel) (by decide) (by decide +kernel) (by decide +kernel)) (by decide +kernel)
  have s2' := next (y' := ⟨.sending exBuilder ((frame (queryBytes exName 16)).drop 41), ((frame (queryBytes exName 16)).take 41).drop 2, [], [0, 42], [], [], [], []⟩) s2
    (.resolverReads (chunk := [42]) (rest := ((frame (queryBytes exName 16)).take 41).drop 2) (by decide +kernel) (by decide) (by decide +kernel) (by decide +kernel)) (by decide +kernel)
  have s2'' := next (y' := ⟨.sending exBuilder ((frame (queryBytes exName 16)).drop 41), ((frame (queryBytes exName 16)).take 41).drop 3, [], [0, 42, 0], [], [], [], []⟩) s2'
    (.resolverReads (chunk := [0]) (rest := ((frame (queryBytes exName 16)).take 41).drop 3) (by decide +kernel) (by decide) (by decide +kernel) (by decide +kernel)) (by decide +kernel)
  have s3 := next (y' := ⟨.reading exBuilder [], (queryBytes exName 16).drop 1, [], [0, 42, 0], [], [], [], []⟩) s2''
    (.driverWrites (k := 3) rfl (by decide) (by decide +kernel) (by decide +kernel)) (by decide +kernel)
  have s4 := next (y' := ⟨.reading exBuilder [], [], [], [], [queryBytes exName 16], [queryBytes exName 16], [], []⟩) s3
    (.resolverReadsLast (chunk := (queryBytes exName 16).drop 1) (rest := []) (q := queryBytes exName 16) (by decide +kernel) (by decide +kernel) (by decide +kernel)
      (by decide +kernel)) (by decide +kernel)
  have s5 := next (y' := ⟨.reading exBuilder [], [], [], [], [queryBytes exName 16], [], [exLong], frame exLong⟩) s4
    (.resolverAnswers (before := []) (after := []) (q := queryBytes exName 16) (response := exLong) rfl (by decide +kernel)) (by decide +kernel)
  have s6 := next (y' := ⟨.reading exBuilder [], [], frame exLong, [], [queryBytes exName 16], [], [exLong], []⟩) s5
    (.resolverWrites (chunk := frame exLong) (rest := []) (by decide +kernel) (by decide +kernel) (by decide +kernel)) (by decide +kernel)
  have s7 := next (y' := ⟨.reading exBuilder ((frame exLong).take 2), [], (frame exLong).drop 2, [], [queryBytes exName 16], [], [exLong], []⟩) s6
    (.driverReads (b := exBuilder) (got := []) (chunk := (frame exLong).take 2) (rest := (frame exLong).drop 2) rfl (by decide +kernel) (by decide +kernel)
      (by decide +kernel)) (by decide +kernel)
  have s8 := next (y' := ⟨.sending exNext (frame exKeys ++ frame exDs), [], [], [], [queryBytes exName 16], [], [exLong], []⟩) s7
    (.driverReads (b := exBuilder) (got := (frame exLong).take 2) (chunk := (frame exLong).drop 2) (rest := []) rfl (by decide +kernel) (by decide +kernel)
      (by decide +kernel)) (by decide +kernel)
  have s9 := next (y' := ⟨.sending exNext (exKeys.drop 39 ++ frame exDs), (frame exKeys).take 41, [], [], [queryBytes exName 16], [], [exLong], []⟩) s8
    (.driverWrites (k := 41) rfl (by decide) (by decide +kernel) (by decide +kernel)) (by decide +kernel)
  have s10 := next (y' := ⟨.sending exNext (exKeys.drop 39 ++ frame exDs), exKeys.take 39, [], [0, 40], [queryBytes exName 16], [], [exLong], []⟩) s9
    (.resolverReads (chunk := [0, 40]) (rest := exKeys.take 39) (by decide +kernel) (by decide) (by decide +kernel) (by decide +kernel)) (by decide +kernel)
  have s11 := next (y' := ⟨.sending exNext (frame exDs), exKeys, [], [0, 40], [queryBytes exName 16], [], [exLong], []⟩) s10
    (.driverWrites (k := 1) rfl (by decide) (by decide +kernel) (by decide +kernel)) (by decide +kernel)
  have s12 := next (y' := ⟨.sending exNext (frame exDs), [], [], [], [queryBytes exName 16, exKeys], [exKeys], [exLong], []⟩) s11
    (.resolverReadsLast (chunk := exKeys) (rest := []) (q := exKeys) (by decide +kernel) (by decide +kernel) (by decide +kernel) (by decide +kernel)) (by decide +kernel)
  have s13 := next (y' := ⟨.sending exNext (exDs.drop 39), (frame exDs).take 41, [], [], [queryBytes exName 16, exKeys], [exKeys], [exLong], []⟩) s12
    (.driverWrites (k := 41) rfl (by decide) (by decide +kernel) (by decide +kernel)) (by decide +kernel)
  have s14 := next (y' := ⟨.sending exNext (exDs.drop 39), (frame exDs).take 41, [], [], [queryBytes exName 16, exKeys], [], [exLong, exZeros], frame exZeros⟩) s13
    (.resolverAnswers (before := []) (after := []) (q := exKeys) (response := exZeros) rfl (by decide +kernel)) (by decide +kernel)
  have s15 := next (y' := ⟨.sending exNext (exDs.drop 39), (frame exDs).take 41, (frame exZeros).take 512, [], [queryBytes exName 16, exKeys], [], [exLong, exZeros], (frame exZeros).drop 512⟩) s14
    (.resolverWrites (chunk := (frame exZeros).take 512) (rest := (frame exZeros).drop 512) (by decide +kernel) (by decide +kernel) (by decide +kernel)) (by decide +kernel)
  refine ⟨_, _, _, _, s15, rfl, by decide +kernel, fun a y hs => ?_⟩
  generalize hx : Exchange.mk _ _ _ _ _ _ _ _ = x at hs
  have hd : x.driver = .sending exNext (exDs.drop 39) := by rw [← hx]
  have hr : x.toResolver.length = 41 := by rw [← hx]; decide +kernel
  have ht : x.toDriver.length = 512 := by rw [← hx]; decide +kernel
  cases hs with
  | driverWrites _ hk _ hroom => omega
  | driverReads hd' => exact nomatch hd.symm.trans hd'
  | resolverReads => exact Or.inl rfl
  | resolverReadsLast => exact Or.inl rfl
  | resolverAnswers => exact Or.inr rfl
  | resolverWrites _ hne hroom =>
    have := List.length_pos_iff.mpr hne
    omega

end Dnssec.Props
