import Verif.Proofs.Termination
import Verif.Proofs.Example
import Verif.Proofs.Decide

/-! # A family of inputs with exponentially many zone visits

Zones `.`, `a.`, `a.a.`, ... where each signs DS sets for all deeper ones. -/

namespace Dnssec

open Spec

/-- `a.a. ... a.` with `i` labels. -/
def eName (i : Nat) : Name := ⟨text (List.replicate i [97])⟩
def eKey (i : Nat) : DnsKey := ⟨eName i, 257, 3, 8, [1, 3, 0x4A, 0x5A]⟩
def eSig (owner : Nat) (ty : UInt16) (z : Nat) : RRSig :=
  ⟨eName owner, ty, 8, UInt8.ofNat owner, 3600, 2000000000, 1000000000, 20326, eName z, [1]⟩
def eDs (i : Nat) : DS := ⟨eName i, 20326, 8, 2, [7]⟩

/-- Keys and key signatures of all zones, DS records of all but the root, and a signature by each zone over the DS set of
each deeper zone. -/
def eInput (n : Nat) : List RR :=
  (List.range (n + 1)).map (fun i => RR.dnskey (eKey i)) ++
  (List.range (n + 1)).map (fun i => RR.rrsig (eSig i 48 i)) ++
  (List.range n).map (fun i => RR.ds (eDs (i + 1))) ++
  (List.range (n + 1)).flatMap (fun i => (List.range (n - i)).map (fun j => RR.rrsig (eSig (i + 1 + j) 43 i)))

theorem eName_labels {i : Nat} (hi : i ≤ 127) : HasLabels (eName i) (List.replicate i [97]) := by
  refine ⟨?_, rfl, ?_⟩
  · intro l hl
    obtain ⟨_, rfl⟩ := List.mem_replicate.mp hl
    exact ⟨by simp, by simp, by intro c hc; simp at hc; subst hc; decide⟩
  · unfold eName text
    split
    · simp
    · simp
      omega

theorem eName_inj {i j : Nat} (hi : i ≤ 127) (hj : j ≤ 127) : eName i = eName j ↔ i = j := by
  constructor
  · intro h
    have h1 := eName_labels hi
    rw [h] at h1
    have := congrArg List.length (h1.unique (eName_labels hj))
    simpa using this
  · rintro rfl; rfl

theorem eName_root (i : Nat) : eName i = rootName ↔ i = 0 := by
  cases i with
  | zero => simp [eName, text, rootName]
  | succ i =>
    simp only [Nat.add_one_ne_zero, iff_false]
    intro h
    have := congrArg (fun n => n.bytes.length) h
    simp [eName, text, rootName, List.replicate_succ] at this

theorem eName_ends {i j : Nat} (h : i ≤ j) : endsWith (eName j).bytes (eName i).bytes = true := by
  rw [endsWith_iff]
  by_cases hi : i = 0
  · subst hi
    by_cases hj : j = 0
    · subst hj; exact ⟨[], rfl⟩
    · obtain ⟨k, rfl⟩ : ∃ k, j = k + 1 := ⟨j - 1, by omega⟩
      refine ⟨(List.replicate k [97, 46]).flatten ++ [97], ?_⟩
      simp [eName, text, List.replicate_succ', List.map_replicate]
  · obtain ⟨i, rfl⟩ : ∃ k, i = k + 1 := ⟨i - 1, by omega⟩
    obtain ⟨k, rfl⟩ : ∃ k, j = k + (i + 1) := ⟨j - (i + 1), by omega⟩
    refine ⟨(List.replicate k [97, 46]).flatten, ?_⟩
    have h2 : k + (i + 1) ≠ 0 := by omega
    simp only [eName, text, List.replicate_eq_nil_iff, h2, Nat.add_one_ne_zero, if_false, List.map_replicate]
    rw [← List.replicate_append_replicate, List.flatten_append]
    rfl

/-! ### Which records belong to which zone -/

theorem filterMap_range_single {α : Type} (f : Nat → α) (m i : Nat) (g : Nat → Option α)
    (hg : ∀ j < m, g j = if j = i then some (f j) else none) :
    (List.range m).filterMap g = if i < m then [f i] else [] := by
  induction m with
  | zero => simp
  | succ m ih =>
    rw [List.range_succ, List.filterMap_append, ih (fun j hj => hg j (by omega))]
    have h1 : List.filterMap g [m] = if m = i then [f m] else [] := by
      simp only [List.filterMap_cons, List.filterMap_nil]
      rw [hg m (by omega)]
      by_cases h : m = i
      · rw [if_pos h, if_pos h]
      · rw [if_neg h, if_neg h]
    rw [h1]
    by_cases h2 : m = i
    · subst h2; rw [if_neg (by omega), if_pos rfl, if_pos (by omega)]; rfl
    · rw [if_neg h2]
      by_cases h3 : i < m
      · rw [if_pos h3, if_pos (by omega)]; rfl
      · rw [if_neg h3, if_neg (by omega)]; rfl

theorem flatMap_range_single {α : Type} (F : List α) (m i : Nat) (G : Nat → List α)
    (hG : ∀ j < m, G j = if j = i then F else []) : (List.range m).flatMap G = if i < m then F else [] := by
  induction m with
  | zero => simp
  | succ m ih =>
    rw [List.range_succ, List.flatMap_append, ih (fun j hj => hG j (by omega))]
    simp only [List.flatMap_cons, List.flatMap_nil, List.append_nil]
    rw [hG m (by omega)]
    by_cases h2 : m = i
    · subst h2; rw [if_neg (by omega), if_pos rfl, if_pos (by omega)]; rfl
    · rw [if_neg h2, List.append_nil]
      by_cases h3 : i < m
      · rw [if_pos h3, if_pos (by omega)]
      · rw [if_neg h3, if_neg (by omega)]

theorem filterMap_none {α β : Type} (l : List α) (g : α → Option β) (h : ∀ a ∈ l, g a = none) : l.filterMap g = [] := by
  rw [List.filterMap_eq_nil_iff]; exact h

variable {n : Nat}

theorem e_parts {β : Type} {g : RR → Option β} {A B C D : List β}
    (hA : (List.range (n + 1)).filterMap (fun i => g (.dnskey (eKey i))) = A)
    (hB : (List.range (n + 1)).filterMap (fun i => g (.rrsig (eSig i 48 i))) = B)
    (hC : (List.range n).filterMap (fun i => g (.ds (eDs (i + 1)))) = C)
    (hD : (List.range (n + 1)).flatMap (fun i => (List.range (n - i)).filterMap
      (fun j => g (.rrsig (eSig (i + 1 + j) 43 i)))) = D) : (eInput n).filterMap g = A ++ B ++ C ++ D := by
  subst hA hB hC hD
  unfold eInput
  simp only [List.filterMap_append, List.filterMap_map, List.filterMap_flatMap]
  rfl

theorem flatMap_none {β : Type} (m : Nat) (k : Nat → Nat) (g : Nat → Nat → Option β) (h : ∀ i j, g i j = none) :
    (List.range m).flatMap (fun i => (List.range (k i)).filterMap (g i)) = [] := by
  rw [List.flatMap_eq_nil_iff]
  intro a _
  exact filterMap_none _ _ (fun j _ => h a j)

theorem e_keysAt (hn : n ≤ 127) {i : Nat} (hi : i ≤ n) : keysAt (eInput n) (eName i) = [eKey i] := by
  refine e_parts (A := [eKey i]) (B := []) (C := []) (D := []) ?_ (filterMap_none _ _ fun _ _ => rfl)
    (filterMap_none _ _ fun _ _ => rfl) (flatMap_none _ _ _ fun _ _ => rfl)
  rw [filterMap_range_single eKey (n + 1) i _ (by
    intro j hj
    by_cases h : j = i
    · rw [if_pos h]; exact if_pos (by rw [h]; rfl)
    · rw [if_neg h]
      exact if_neg (fun e => h ((eName_inj (by omega) (by omega)).mp e)))]
  rw [if_pos (by omega)]

theorem e_keySigs (hn : n ≤ 127) {i : Nat} (hi : i ≤ n) : keySigs (eInput n) (eName i) = [eSig i 48 i] := by
  refine e_parts (A := []) (B := [eSig i 48 i]) (C := []) (D := []) (filterMap_none _ _ fun _ _ => rfl) ?_
    (filterMap_none _ _ fun _ _ => rfl) (flatMap_none _ _ _ fun _ _ => if_neg (by simp [eSig]))
  rw [filterMap_range_single (fun i => eSig i 48 i) (n + 1) i _ (by
    intro j hj
    by_cases h : j = i
    · rw [if_pos h]; exact if_pos (by rw [h]; exact ⟨rfl, rfl⟩)
    · rw [if_neg h]
      exact if_neg (fun e => h ((eName_inj (by omega) (by omega)).mp e.1)))]
  rw [if_pos (by omega)]

theorem e_dsAt (hn : n ≤ 127) {i : Nat} (hi : i ≤ n) (h0 : i ≠ 0) : dsAt (eInput n) (eName i) = [eDs i] := by
  refine e_parts (A := []) (B := []) (C := [eDs i]) (D := []) (filterMap_none _ _ fun _ _ => rfl)
    (filterMap_none _ _ fun _ _ => rfl) ?_ (flatMap_none _ _ _ fun _ _ => rfl)
  rw [filterMap_range_single (fun i => eDs (i + 1)) n (i - 1) _ (by
    intro j hj
    by_cases h : j = i - 1
    · rw [if_pos h]
      have : j + 1 = i := by omega
      exact if_pos (by rw [this]; rfl)
    · rw [if_neg h]
      refine if_neg (fun e => ?_)
      have := (eName_inj (i := j + 1) (j := i) (by omega) (by omega)).mp e
      omega)]
  rw [if_pos (by omega)]
  have : i - 1 + 1 = i := by omega
  simp [this]

theorem e_sigsBy (hn : n ≤ 127) {i : Nat} (hi : i ≤ n) :
    sigsBy (eInput n) (eName i) = (List.range (n - i)).map (fun j => eSig (i + 1 + j) 43 i) := by
  refine e_parts (A := []) (B := []) (C := []) (D := (List.range (n - i)).map (fun j => eSig (i + 1 + j) 43 i))
    (filterMap_none _ _ fun _ _ => rfl) (filterMap_none _ _ fun _ _ => if_neg (by simp [eSig]))
    (filterMap_none _ _ fun _ _ => rfl) ?_
  rw [flatMap_range_single ((List.range (n - i)).map (fun j => eSig (i + 1 + j) 43 i)) (n + 1) i _ (by
    intro a ha
    by_cases h : a = i
    · rw [if_pos h]
      subst h
      rw [← List.filterMap_eq_map]
      congr 1
      funext j
      exact if_pos ⟨rfl, by simp [eSig]⟩
    · rw [if_neg h]
      refine filterMap_none _ _ (fun j _ => ?_)
      exact if_neg (fun e => h ((eName_inj (by omega) (by omega)).mp e.1)))]
  rw [if_pos (by omega)]

theorem rrset_ds (inp : List RR) (z : Name) : rrset inp z 43 = (dsAt inp z).map RR.ds := by
  induction inp with
  | nil => rfl
  | cons r rs ih =>
    unfold rrset dsAt at ih ⊢
    cases r with
    | ds d =>
      by_cases h : d.name = z
      · rw [List.filter_cons_of_pos (by simp only [RR.name, RR.ty, h, true_and]; decide)]
        simp only [List.filterMap_cons, h, if_true, List.map_cons]
        exact congrArg _ ih
      · rw [List.filter_cons_of_neg (by simp only [RR.name, h, false_and, decide_false]; decide)]
        simp only [List.filterMap_cons, h, if_false]
        exact ih
    | _ =>
      rw [List.filter_cons_of_neg (by
        rw [decide_eq_true_eq]
        simp only [RR.ty]
        rintro ⟨_, h⟩
        exact absurd h (by decide))]
      exact ih

theorem e_rrset (hn : n ≤ 127) {i : Nat} (hi : i ≤ n) (h0 : i ≠ 0) : rrset (eInput n) (eName i) 43 = [.ds (eDs i)] := by
  rw [rrset_ds, e_dsAt hn hi h0]; rfl

/-! ### Verification -/

theorem e_tag (k : Nat) : (eKey k).computeKeyTag = 20326 := by
  simp only [DnsKey.computeKeyTag, eKey]
  decide

theorem e_tag' (k : Nat) : (20326 : UInt16).toNat = keyTag (rdata (.dnskey (eKey k))) := by
  rw [← keyTag_eq, e_tag]

theorem e_eligible (o z k : Nat) (ty : UInt16) : Eligible (eSig o ty z) (eKey k) :=
  ⟨e_tag' k, rfl, show (257 : UInt16).toNat.testBit 8 = true by decide, rfl⟩

theorem e_good {o : Nat} (ho : o ≤ 127) (ty : UInt16) (z k : Nat) (r : RR) (ht : r.ty = ty) (hn : r.name = eName o) :
    verifyRrsig wPlatform (eSig o ty z) [eKey k] [r] = .ok () := by
  rw [verifyRrsig_ok_iff]
  have hl : r.name.labels.toNat = (eSig o ty z).labels.toNat := by
    rw [hn, (eName_labels ho).labels_eq]
    simp [eSig]
    omega
  have hm : ∃ msg, signedData (eSig o ty z) [r] = some msg := by
    unfold signedData
    simp only [sortBy, insertBy, signedRecords, signedOwner, hl, ne_eq, not_true_eq_false, and_false, if_false]
    exact ⟨_, rfl⟩
  obtain ⟨msg, hm⟩ := hm
  refine ⟨by simp [ht, eSig], eKey k, msg, ⟨[], [], rfl, e_eligible o z k ty, by simp⟩, hm, ?_⟩
  exact .rsaSha256 [0x4A, 0x5A] [3] rfl (show 3 < [(1 : UInt8), 3, 0x4A, 0x5A].length by decide) (.short 1 [3] [0x4A, 0x5A] (by decide) rfl) (by decide) rfl

theorem e_vouches {i : Nat} (hi : i ≤ 127) (h0 : i ≠ 0) : Vouches wPlatform (eDs i) (eKey i) := by
  refine ⟨rfl, e_tag' i, Or.inr ⟨rfl, ?_⟩⟩
  have hw : writeName (eName i).bytes = wire (List.replicate i [97]) := (eName_labels hi).writeName
  obtain ⟨k, rfl⟩ : ∃ k, i = k + 1 := ⟨i - 1, by omega⟩
  unfold digestInput
  rw [← writeName_eq_nameWire]
  change wPlatform.sha256 (writeName (eName (k + 1)).bytes ++ _) = _
  rw [hw]
  simp only [wire, List.replicate_succ, List.map_cons, List.flatten_cons, List.cons_append]
  rfl

theorem e_anchored (hn : n ≤ 127) {i : Nat} (hi : i ≤ n) :
    anchoredKeys wPlatform (anchors (eInput n) (eName i)) [eKey i] = [eKey i] ∧
    ∃ d ∈ anchors (eInput n) (eName i), d.digestType = 1 ∨ d.digestType = 2 ∨ d.digestType = 4 := by
  by_cases h0 : i = 0
  · subst h0
    have h1 : anchors (eInput n) (eName 0) = rootHints := by
      unfold anchors; rw [if_pos ((eName_root 0).mpr rfl), rootHints_iana]
    rw [h1]
    refine ⟨by decide +kernel, by decide +kernel⟩
  · have h1 : anchors (eInput n) (eName i) = [eDs i] := by
      unfold anchors
      rw [if_neg (fun h => h0 ((eName_root i).mp h)), e_dsAt hn hi h0]
    rw [h1]
    refine ⟨?_, eDs i, by simp, Or.inr (Or.inl rfl)⟩
    unfold anchoredKeys
    rw [List.filter_cons, if_pos, List.filter_nil]
    simp only [decide_eq_true_eq]
    exact ⟨eDs i, by simp, e_vouches (by omega) h0, fun h => absurd h (by simp [eDs])⟩

theorem e_verifyDnskeys (hn : n ≤ 127) {i : Nat} (hi : i ≤ n) :
    verifyDnskeys wPlatform (keySigs (eInput n) (eName i)) (anchors (eInput n) (eName i)) (keysAt (eInput n) (eName i)) =
      .ok (eSig i 48 i) := by
  rw [verifyDnskeys_ok_iff, e_keySigs hn hi, e_keysAt hn hi]
  obtain ⟨h1, h2⟩ := e_anchored hn hi
  refine ⟨h2, [], [], rfl, by simp, ?_⟩
  rw [h1]
  exact e_good (by omega) 48 i i _ rfl rfl

/-- The stack entries for the zones `lo+k-1, ..., lo` (deepest on top). -/
def eStack (lo : Nat) : Nat → List (Name × List DS)
  | 0 => []
  | k + 1 => (eName (lo + k), [eDs (lo + k)]) :: eStack lo k

theorem eStack_mem {lo : Nat} : ∀ {k : Nat} {e : Name × List DS}, e ∈ eStack lo k → ∃ j, lo ≤ j ∧ j < lo + k ∧ e.1 = eName j
  | 0, _, h => by simp [eStack] at h
  | k + 1, e, h => by
    rw [eStack] at h
    rcases List.mem_cons.mp h with rfl | h
    · exact ⟨lo + k, by omega, by omega, rfl⟩
    · obtain ⟨j, a, b, c⟩ := eStack_mem h
      exact ⟨j, a, by omega, c⟩

theorem e_sigLoop (dbg : Bool) (hn : n ≤ 127) {i : Nat} (hi : i ≤ n) {st : VState}
    (hst : ∀ e ∈ st.pending, ∃ k, k ≤ i ∧ e.1 = eName k) : ∀ (m : Nat), m ≤ n - i →
    ∃ st', sigLoop dbg wPlatform (eInput n) (eName i).bytes ((List.range m).map (fun j => eSig (i + 1 + j) 43 i)) st = .ok st' ∧
      st'.pending = eStack (i + 1) m ++ st.pending := by
  have happ : ∀ (a b : List RRSig) (st : VState),
      sigLoop dbg wPlatform (eInput n) (eName i).bytes (a ++ b) st =
        (sigLoop dbg wPlatform (eInput n) (eName i).bytes a st).bind
          (sigLoop dbg wPlatform (eInput n) (eName i).bytes b) := by
    intro a
    induction a with
    | nil => intro b st; rfl
    | cons s a ih =>
      intro b st
      rw [List.cons_append, sigLoop, sigLoop]
      split
      · rfl
      · cases verifyRrsig wPlatform s (zoneKeys (eInput n) (eName i).bytes) (coveredRecords (eInput n) s) with
        | panic => rfl
        | err e => cases e <;> simp only <;> first | exact ih b st | rfl
        | ok u =>
          simp only
          cases acceptSig dbg (eInput n) s (st.note s) with
          | ok st1 => exact ih b st1
          | err e => rfl
          | panic => rfl
  intro m
  induction m with
  | zero => intro _; exact ⟨st, rfl, rfl⟩
  | succ m ih =>
    intro hm
    obtain ⟨st1, h1, h2⟩ := ih (by omega)
    rw [List.range_succ, List.map_append, happ, h1]
    simp only [Res.bind, List.map_cons, List.map_nil]
    rw [sigLoop, if_neg (by
      simp only [Bool.not_eq_true', Bool.not_eq_false]
      exact eName_ends (by omega)), zoneKeys_eq, coveredRecords_eq]
    have hj0 : i + 1 + m ≠ 0 := by omega
    have hrr : rrset (eInput n) (eSig (i + 1 + m) 43 i).name (eSig (i + 1 + m) 43 i).ty = [.ds (eDs (i + 1 + m))] :=
      e_rrset hn (by omega) hj0
    rw [hrr, e_keysAt hn hi, e_good (by omega) 43 i i _ rfl rfl]
    simp only
    have hacc : acceptSig dbg (eInput n) (eSig (i + 1 + m) 43 i) (st1.note (eSig (i + 1 + m) 43 i)) =
        .ok { st1.note (eSig (i + 1 + m) 43 i) with
          pending := (eName (i + 1 + m), dsSet (eInput n) (eSig (i + 1 + m) 43 i)) :: st1.pending } := by
      unfold acceptSig
      rw [if_neg (by simp [eSig]; decide), if_pos (show (eSig (i + 1 + m) 43 i).ty = dsType from rfl), if_neg]
      · rfl
      · rw [note_pending, h2, List.any_eq_true]
        rintro ⟨e, he, heq⟩
        have heq' : e.1 = eName (i + 1 + m) := (Name.ext_iff' _ _).mp (beq_iff_eq.mp heq)
        rcases List.mem_append.mp he with he | he
        · obtain ⟨j, _, hj, hej⟩ := eStack_mem he
          have := (eName_inj (i := j) (j := i + 1 + m) (by omega) (by omega)).mp (hej.symm.trans heq')
          omega
        · obtain ⟨k, hk, hek⟩ := hst e he
          have := (eName_inj (i := k) (j := i + 1 + m) (by omega) (by omega)).mp (hek.symm.trans heq')
          omega
    rw [hacc]
    refine ⟨_, rfl, ?_⟩
    simp only
    rw [dsSet_eq _ _ rfl]
    have : dsAt (eInput n) (eSig (i + 1 + m) 43 i).name = [eDs (i + 1 + m)] := e_dsAt hn (by omega) hj0
    rw [this, h2]
    rfl

theorem e_doZone (dbg : Bool) (hn : n ≤ 127) {i : Nat} (hi : i ≤ n) (ds : List DS) (hds : i ≠ 0 → ds = [eDs i]) {st : VState}
    (hst : ∀ e ∈ st.pending, ∃ k, k ≤ i ∧ e.1 = eName k) :
    ∃ st', doZone dbg wPlatform (eInput n) (eName i).bytes ds st = .ok st' ∧
      st'.pending = eStack (i + 1) (n - i) ++ st.pending := by
  rw [doZone_eq _ _ _ _ _ _ (by
    intro h
    have h0 : i ≠ 0 := fun e => h ((eName_root i).mpr e)
    rw [hds h0, e_dsAt hn hi h0]), e_verifyDnskeys hn hi, e_sigsBy hn hi]
  exact e_sigLoop dbg hn hi (st := st.note (eSig i 48 i)) hst (n - i) (Nat.le_refl _)

/-! ### Counting -/

/-- Processing the zone `i` on top of the stack takes exactly `2^(n-i)` iterations until the stack below it is on top. -/
theorem e_visit (dbg : Bool) (hn : n ≤ 127) : ∀ (d i : Nat), i ≤ n → n - i = d → i ≠ 0 → ∀ (fuel : Nat) (zone : Bytes)
    (st : VState) (rest : List (Name × List DS)), st.pending = (eName i, [eDs i]) :: rest →
    (∀ e ∈ rest, ∃ k, k < i ∧ e.1 = eName k) →
    (fuel < 2 ^ d → zoneLoop dbg wPlatform (eInput n) fuel zone st = none) ∧
    (2 ^ d ≤ fuel → ∃ zone' st', st'.pending = rest ∧ zone' ≠ [dot] ∧
      zoneLoop dbg wPlatform (eInput n) fuel zone st = zoneLoop dbg wPlatform (eInput n) (fuel - 2 ^ d) zone' st') := by
  intro d
  induction d using Nat.strongRecOn with
  | _ d ihd =>
  intro i hi hd h0 fuel zone st rest hp hrest
  have hzone : (eName i).bytes ≠ [dot] := fun h => h0 ((eName_root i).mp ((Name.ext_iff' _ _).mp h))
  -- the zones pushed by `i`, from the top
  have stack : ∀ (k : Nat), k ≤ d → ∀ (fuel : Nat) (zone : Bytes) (st : VState),
      st.pending = eStack (i + 1) k ++ rest → zone ≠ [dot] →
      (fuel < 2 ^ d - 2 ^ (d - k) → zoneLoop dbg wPlatform (eInput n) fuel zone st = none) ∧
      (2 ^ d - 2 ^ (d - k) ≤ fuel → ∃ zone' st', st'.pending = rest ∧ zone' ≠ [dot] ∧
        zoneLoop dbg wPlatform (eInput n) fuel zone st =
          zoneLoop dbg wPlatform (eInput n) (fuel - (2 ^ d - 2 ^ (d - k))) zone' st') := by
    intro k
    induction k with
    | zero =>
      intro _ fuel zone st hst hz
      refine ⟨fun h => by simp at h, fun _ => ⟨zone, st, ?_, hz, ?_⟩⟩
      · rw [hst]; rfl
      · simp
    | succ k ihk =>
      intro hk fuel zone st hst hz
      have hle : 2 ^ (d - k) ≤ 2 ^ d := Nat.pow_le_pow_right (by omega) (by omega)
      have hsucc : 2 ^ (d - k) = 2 * 2 ^ (d - (k + 1)) := by
        have : d - k = (d - (k + 1)) + 1 := by omega
        rw [this, Nat.pow_succ]; omega
      have hpos : 0 < 2 ^ (d - (k + 1)) := Nat.pow_pos (by omega)
      obtain ⟨v1, v2⟩ := ihd (d - (k + 1)) (by omega) (i + 1 + k) (by omega) (by omega) (by omega) fuel zone st
        (eStack (i + 1) k ++ rest) (by rw [hst]; rfl) (by
          intro e he
          rcases List.mem_append.mp he with he | he
          · obtain ⟨j, _, a, b⟩ := eStack_mem he
            exact ⟨j, a, b⟩
          · obtain ⟨j, a, b⟩ := hrest e he
            exact ⟨j, by omega, b⟩)
      by_cases hf : fuel < 2 ^ (d - (k + 1))
      · exact ⟨fun _ => v1 hf, fun h => by omega⟩
      · obtain ⟨zone1, st1, w1, w2, w3⟩ := v2 (by omega)
        obtain ⟨u1, u2⟩ := ihk (by omega) (fuel - 2 ^ (d - (k + 1))) zone1 st1 w1 w2
        rw [w3]
        refine ⟨fun h => u1 (by omega), fun h => ?_⟩
        obtain ⟨zone2, st2, x1, x2, x3⟩ := u2 (by omega)
        refine ⟨zone2, st2, x1, x2, ?_⟩
        rw [x3]
        congr 1
        omega
  have hpos : 0 < 2 ^ d := Nat.pow_pos (by omega)
  cases fuel with
  | zero =>
    refine ⟨fun _ => ?_, fun h => by omega⟩
    rw [zoneLoop, if_pos (Or.inr (by rw [hp]; simp))]
  | succ fuel =>
    obtain ⟨st1, hdz, hp1⟩ := e_doZone dbg hn hi [eDs i] (fun _ => rfl) (st := { st with pending := rest }) (by
      intro e he
      obtain ⟨k, a, b⟩ := hrest e he
      exact ⟨k, by omega, b⟩)
    have hstep : zoneLoop dbg wPlatform (eInput n) (fuel + 1) zone st =
        zoneLoop dbg wPlatform (eInput n) fuel (eName i).bytes st1 := by
      rw [zoneLoop, if_pos (Or.inr (by rw [hp]; simp)), hp]
      simp only
      rw [hdz]
    rw [hd] at hp1
    obtain ⟨s1, s2⟩ := stack d (Nat.le_refl _) fuel (eName i).bytes st1 hp1 hzone
    simp only [Nat.sub_self, Nat.pow_zero] at s1 s2
    rw [hstep]
    refine ⟨fun h => s1 (by omega), fun h => ?_⟩
    obtain ⟨zone', st', a, b, c⟩ := s2 (by omega)
    refine ⟨zone', st', a, b, ?_⟩
    rw [c]
    congr 1
    omega

/-- From the state after the root: the zones `k, ..., 1` are on the stack. -/
theorem e_stack (dbg : Bool) (hn : n ≤ 127) : ∀ (k : Nat), k ≤ n → ∀ (fuel : Nat) (zone : Bytes) (st : VState),
    st.pending = eStack 1 k → (zone ≠ [dot] ∨ k ≠ 0) →
    (zoneLoop dbg wPlatform (eInput n) fuel zone st = none ↔ fuel < 2 ^ n - 2 ^ (n - k)) := by
  intro k
  induction k with
  | zero =>
    intro _ fuel zone st hst hz
    have hz' : zone ≠ [dot] := by simpa using hz
    have hc : ¬(zone = [dot] ∨ st.pending ≠ []) := by rw [hst]; simp [eStack, hz']
    cases fuel <;> rw [zoneLoop, if_neg hc] <;> simp
  | succ k ihk =>
    intro hk fuel zone st hst _
    have hsucc : 2 ^ (n - k) = 2 * 2 ^ (n - (k + 1)) := by
      have : n - k = (n - (k + 1)) + 1 := by omega
      rw [this, Nat.pow_succ]; omega
    have hle : 2 ^ (n - k) ≤ 2 ^ n := Nat.pow_le_pow_right (by omega) (by omega)
    have hpos : 0 < 2 ^ (n - (k + 1)) := Nat.pow_pos (by omega)
    obtain ⟨v1, v2⟩ := e_visit dbg hn (n - (k + 1)) (1 + k) (by omega) (by omega) (by omega) fuel zone st (eStack 1 k)
      (by rw [hst]; rfl) (by
        intro e he
        obtain ⟨j, _, a, b⟩ := eStack_mem he
        exact ⟨j, a, b⟩)
    by_cases hf : fuel < 2 ^ (n - (k + 1))
    · rw [v1 hf]; simp; omega
    · obtain ⟨zone1, st1, w1, w2, w3⟩ := v2 (by omega)
      rw [w3, ihk (by omega) _ zone1 st1 w1 (Or.inl w2)]
      omega

/-- The input with `n + 1` zones needs exactly `2^n` iterations of the zone loop. -/
theorem e_exact (dbg : Bool) (hn : n ≤ 127) (h1 : 1 ≤ n) (fuel : Nat) :
    verifyRRStream dbg wPlatform fuel (eInput n) = none ↔ fuel < 2 ^ n := by
  have key : zoneLoop dbg wPlatform (eInput n) fuel [dot] VState.init = none ↔ fuel < 2 ^ n := by
    have hpos : 0 < 2 ^ n := Nat.pow_pos (by omega)
    cases fuel with
    | zero =>
      rw [zoneLoop, if_pos (Or.inl rfl)]
      simp [hpos]
    | succ fuel =>
      obtain ⟨st1, hdz, hp1⟩ := e_doZone dbg hn (Nat.zero_le n) [] (fun h => absurd rfl h) (st := VState.init)
        (by simp [VState.init])
      have hp1' : st1.pending = eStack 1 n := by rw [hp1]; simp [VState.init]
      have hstep : zoneLoop dbg wPlatform (eInput n) (fuel + 1) [dot] VState.init =
          zoneLoop dbg wPlatform (eInput n) fuel (eName 0).bytes st1 := by
        rw [zoneLoop, if_pos (Or.inl rfl)]
        change (match doZone dbg wPlatform (eInput n) (eName 0).bytes [] VState.init with
          | .ok st => zoneLoop dbg wPlatform (eInput n) fuel (eName 0).bytes st
          | .err e => some (.err e)
          | .panic => some .panic) = _
        rw [hdz]
      rw [hstep, e_stack dbg hn n (Nat.le_refl _) fuel _ st1 hp1' (Or.inr (by omega))]
      simp
      omega
  rw [← key]
  unfold verifyRRStream
  cases zoneLoop dbg wPlatform (eInput n) fuel [dot] VState.init with
  | none => simp
  | some r => cases r <;> simp

theorem eInput_length (n : Nat) : (eInput n).length ≤ (n + 3) * (n + 3) := by
  have h : ∀ m k : Nat, ((List.range m).flatMap (fun i => (List.range (k - i)).map (fun j => RR.rrsig (eSig (i + 1 + j) 43 i)))).length ≤ m * k := by
    intro m k
    induction m with
    | zero => simp
    | succ m ih =>
      rw [List.range_succ, List.flatMap_append, List.length_append]
      simp only [List.flatMap_cons, List.flatMap_nil, List.append_nil, List.length_map, List.length_range]
      rw [Nat.add_mul]
      omega
  have := h (n + 1) n
  unfold eInput
  simp only [List.length_append, List.length_map, List.length_range]
  have e1 : (n + 3) * (n + 3) = (n + 1) * n + (5 * n + 9) := by
    simp only [Nat.add_mul, Nat.mul_add]; omega
  omega

end Dnssec
