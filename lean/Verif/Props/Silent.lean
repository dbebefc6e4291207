import Verif.Props.Duplex

/-! # C111: building a proof ends, whatever the resolver does -/

namespace Dnssec.Props

open Dnssec Dnssec.Spec

variable {dbg : Bool} {name : Name} {ty : UInt16} {roomR roomD n : Nat} {x : Exchange}

/-- **C111.** The driver waits only while a response is due: if it has not returned and can neither write nor read, then nothing is on its way to it, and the resolver has
something to do: it has something to write, or a query to answer, or something of a query to read. Missing: that the driver gives up when the resolver does not do it, see
`C111_fails_silent_resolver`. -/
theorem C111_waits_partial (hn : Obtainable name) (hR : 2850 ≤ roomR) (hD : 1 ≤ roomD) (h : Reaches dbg roomR roomD name ty n x)
    (hr : ∀ r, x.driver ≠ .returned r) (hw : ∀ y, ¬ Step dbg roomR roomD .driverWrites x y) (hd : ∀ y, ¬ Step dbg roomR roomD .driverReads x y) :
    x.toDriver = [] ∧ (x.toWrite ≠ [] ∨ x.owed ≠ [] ∨ x.toResolver ≠ []) := by
  obtain ⟨acc, qs, inv⟩ := exInv hn h
  have ht : x.toDriver = [] := by
    match hx : x.driver with
    | .returned r => exact absurd hx (hr r)
    | .sending b left =>
      rcases C110_goes_on hn hR hD h with ⟨r, e⟩ | ⟨y, hy⟩ | ⟨y, hy⟩ | h' | h' | h'
      · exact absurd e (hr r)
      · exact absurd hy (hw y)
      · exact absurd hy (hd y)
      all_goals
        have hw' := C110_sending_writes hn hR h hx
        obtain ⟨y, hy⟩ := hw'
        exact absurd hy (hw y)
    | .reading b got =>
      have hok := inv.driver
      rw [hx] at hok
      cases ht : x.toDriver with
      | nil => rfl
      | cons c rest => exact absurd (.driverReads hx (chunk := [c]) ht (by simp) (Nat.pos_of_ne_zero hok.2.2)) (hd _)
  refine ⟨ht, ?_⟩
  rcases C110_goes_on hn hR hD h with ⟨r, e⟩ | ⟨y, hy⟩ | ⟨y, hy⟩ | ⟨h', _⟩ | ⟨_, h'⟩ | ⟨_, _, y, hy⟩
  · exact absurd e (hr r)
  · exact absurd hy (hw y)
  · exact absurd hy (hd y)
  · exact Or.inl h'
  · exact Or.inr (Or.inl h')
  · refine Or.inr (Or.inr ?_)
    cases hy with
    | resolverReads e hne => rw [e]; simp [hne]
    | resolverReadsLast e hne => rw [e]; simp [hne]

/-- **C111 is false**: whatever the name, the type and the buffers (of some size), the resolver can read the query and answer nothing. Then the driver waits, and nothing
but an answer of the resolver can make it go on; there is no timeout. -/
theorem C111_fails_silent_resolver (hn : Obtainable name) (hR : 285 ≤ roomR) : ∃ n x b, Reaches dbg roomR roomD name ty n x ∧ x.driver = .reading b [] ∧
    ∀ a y, Step dbg roomR roomD a x y → a = .resolverAnswers := by
  have hq : (queryBytes name ty).length ≤ 283 := queryBytes_length _ _ hn.short
  have hlen : (queryBytes name ty).length ≤ 65535 := Nat.le_trans hq (by decide)
  have hf : (frame (queryBytes name ty)).length = (queryBytes name ty).length + 2 := by simp [frame]
  have ha : (ProofBuilder.new name ty).1.awaiting = true := by simp [ProofBuilder.new, ProofBuilder.awaiting, maxRequests]
  have h0 : Exchange.start name ty = ⟨.sending (ProofBuilder.new name ty).1 (frame (queryBytes name ty)), [], [], [], [], [], [], []⟩ := by
    simp only [Exchange.start, TcpDriver.start, TcpDriver.send]
    rw [show (ProofBuilder.new name ty).2 = queryBytes name ty from rfl, sentFor_frame hlen]
    rfl
  have s0 := Reaches.start (dbg := dbg) (roomR := roomR) (roomD := roomD) (name := name) (ty := ty)
  rw [h0] at s0
  have s1 := s0.step (.driverWrites rfl (k := (frame (queryBytes name ty)).length) (by omega) (Nat.le_refl _) (by simp only [List.length_nil]; omega))
  simp only [TcpDriver.wrote, List.drop_length, List.take_length, List.nil_append, TcpDriver.send, List.isEmpty_nil, ite_true, TcpDriver.loopHead, ha] at s1
  have s2 := s1.step (.resolverReadsLast (chunk := frame (queryBytes name ty)) (rest := []) (q := queryBytes name ty) (by simp) (by simp [frame]) hlen rfl)
  refine ⟨_, _, _, s2, rfl, fun a y hs => ?_⟩
  generalize hx : Exchange.mk _ _ _ _ _ _ _ _ = x at hs
  cases hs with
  | driverWrites e => rw [← hx] at e; exact nomatch e
  | driverReads _ e hne => rw [← hx] at e; simp_all
  | resolverReads e hne => rw [← hx] at e; simp_all
  | resolverReadsLast e hne => rw [← hx] at e; simp_all
  | resolverAnswers => rfl
  | resolverWrites e hne => rw [← hx] at e; simp_all

/-- Such an execution meets the hypotheses of `C111_waits_partial`. -/
example : ∃ n x, Reaches true 4096 1 ⟨ascii "a.example.com."⟩ 16 n x ∧ (∀ r, x.driver ≠ .returned r) ∧ (∀ y, ¬ Step true 4096 1 .driverWrites x y) ∧
    (∀ y, ¬ Step true 4096 1 .driverReads x y) := by
  obtain ⟨n, x, b, h, hd, hs⟩ := C111_fails_silent_resolver (dbg := true) (roomR := 4096) (roomD := 1) (name := ⟨ascii "a.example.com."⟩) (ty := 16)
    (obtainable_of (s := ascii "A.example.com.") (by decide)) (by decide)
  exact ⟨n, x, h, fun r e => (nomatch hd.symm.trans e), fun y hy => (nomatch hs _ y hy), fun y hy => (nomatch hs _ y hy)⟩

end Dnssec.Props
