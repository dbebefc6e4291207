import Verif.Spec.PlainMessage
import Verif.Proofs.Builder
import Verif.Proofs.Records

/-! # Lemmas for C108 -/

namespace Dnssec

open Spec

theorem decodes_append {msg : Bytes} (x : Bytes) {k : Nat} {inp t rest : Bytes} (h : Decodes msg k inp t rest) :
    ∀ y, Decodes (msg ++ x) k (inp ++ y) t (rest ++ y) := by
  induction h with
  | stop k rest => intro y; exact .stop k _
  | label k len l inp text rest h1 h2 h3 _ ih =>
    intro y
    have := Decodes.label k len l _ text _ h1 h2 h3 (ih y)
    simpa using this
  | pointer k hi lo text rest rest' h1 h2 _ ih =>
    intro y
    refine .pointer k hi lo text (rest ++ y) (rest' ++ x) h1 (by rw [List.length_append]; omega) ?_
    rw [List.drop_append_of_le_length (Nat.le_of_lt h2)]
    exact ih x

theorem readsName_append {msg inp rest : Bytes} {n : Name} (x y : Bytes) (h : ReadsName msg inp n rest) :
    ReadsName (msg ++ x) (inp ++ y) n (rest ++ y) := by
  obtain ⟨t, h1, h2, h3⟩ := h
  exact ⟨t, decodes_append x h1 y, h2, h3⟩

theorem readsName_grow {msg inp rest : Bytes} {n : Name} (x : Bytes) (h : ReadsName msg inp n rest) : ReadsName (msg ++ x) inp n rest := by
  simpa using readsName_append x [] h

theorem readsRData_grow {dbg : Bool} {msg data : Bytes} {owner : Name} {ty : Nat} {r : RR} (x : Bytes)
    (h : ReadsRData dbg msg owner ty data r) : ReadsRData dbg (msg ++ x) owner ty data r := by
  cases h with
  | a addr => exact .a addr
  | ns data rest n h hd => exact .ns _ _ _ (readsName_grow x h) hd
  | cname data rest n h hd => exact .cname _ _ _ (readsName_grow x h) hd
  | txt ss h => exact .txt ss h
  | aaaa addr => exact .aaaa addr
  | dname data rest n h hd => exact .dname _ _ _ (readsName_grow x h) hd
  | ds => exact .ds ..
  | rrsig _ _ _ _ _ _ _ _ _ _ h => exact .rrsig _ _ _ _ _ _ _ _ _ _ (readsName_grow x h)
  | nsec data bitmap next types h hb => exact .nsec _ _ _ _ (readsName_grow x h) hb
  | dnskey => exact .dnskey ..
  | nsec3 algo flags it salt hash bitmap types h1 h2 h3 => exact .nsec3 _ _ _ _ _ _ _ h1 h2 h3
  | tlsa => exact .tlsa ..

theorem readsRecord_append {dbg : Bool} {msg inp rest : Bytes} {r : RR × UInt32} (x y : Bytes) (h : ReadsRecord dbg msg inp r rest) :
    ReadsRecord dbg (msg ++ x) (inp ++ y) r (rest ++ y) := by
  obtain ⟨owner, ty, data, after, h1, h2, h3, h4⟩ := h
  exact ⟨owner, ty, data, after ++ y, readsName_append x y h1, by rw [h2]; simp, h3, readsRData_grow x h4⟩

theorem records_grow {dbg : Bool} {msg inp rest : Bytes} {k : Nat} {rs : List (RR × UInt32)} (x y : Bytes)
    (h : Records dbg msg k inp rs rest) : Records dbg (msg ++ x) k (inp ++ y) rs (rest ++ y) := by
  induction h with
  | nil rest => exact .nil _
  | cons h _ ih => exact .cons (readsRecord_append x y h) ih

theorem contributes_append {dbg : Bool} {resp : Bytes} {recs : List (RR × UInt32)} (x : Bytes) (h : Contributes dbg resp recs) :
    Contributes dbg (resp ++ x) recs := by
  obtain ⟨fl, an, ns, ar, qn, qt, qc, body, mid, rest, ans, auth, ⟨ah, e, hq⟩, h1, h2, h3, h4, h5, h6, hr1, hr2, e2⟩ := h
  refine ⟨fl, an, ns, ar, qn, qt, qc, body ++ x, mid ++ x, rest ++ x, ans, auth, ⟨ah ++ x, ?_, ?_⟩, h1, h2, h3, h4, h5, h6,
    records_grow x x hr1, records_grow x x hr2, e2⟩
  · conv => lhs; rw [e]
    simp
  · simpa using readsName_append x x hq

theorem records_encode {dbg : Bool} (msg rest : Bytes) : ∀ {recs : List (RR × UInt32)}, (∀ r ∈ recs, Encodable r.1) →
    Records dbg msg recs.length (encode recs ++ rest) recs rest
  | [], _ => .nil _
  | (r, ttl) :: recs, h => by
    have hr := parse_writeRR dbg msg r (h _ (List.mem_cons_self ..)) ttl (encode recs ++ rest)
    refine .cons ?_ (records_encode msg rest (fun r hr => h r (List.mem_cons_of_mem _ hr)))
    rw [← List.append_assoc] at hr
    exact (parseWirePacketRR_iff ..).mp hr

theorem contributes_plain {dbg : Bool} {qname : List Bytes} (hq : ∀ l ∈ qname, Label l) (hs : (text qname).length ≤ 255) (qtype : UInt16)
    {recs : List (RR × UInt32)} (hne : recs ≠ []) (hlen : recs.length ≤ 65535) (he : ∀ r ∈ recs, Encodable r.1) :
    Contributes dbg (plainMessage qname qtype recs) recs := by
  have hn : (UInt16.ofNat recs.length).toNat = recs.length := by rw [UInt16.toNat_ofNat']; omega
  have hr := records_encode (dbg := dbg) (plainMessage qname qtype recs) [] he
  rw [List.append_nil] at hr
  refine ⟨0x81a0, UInt16.ofNat recs.length, 0, 0, ⟨text qname⟩, qtype, 1, encode recs, [], [], recs, [], ⟨_, rfl, ?_⟩, by decide, by decide,
    by decide, by decide, by decide, ?_, ?_, .nil _, by simp⟩
  · exact readName_reads.mp (readName_wire _ ⟨hq, rfl, hs⟩ _)
  · rw [hn]; exact List.length_pos_iff.mpr hne
  · rw [hn]; exact hr

theorem processResponse_congr {dbg dbg' : Bool} {r r' : Bytes} {recs : List (RR × UInt32)} (h : Contributes dbg r recs)
    (h' : Contributes dbg' r' recs) (b : ProofBuilder) : b.processResponse dbg r = b.processResponse dbg' r' := by
  by_cases hp : b.pending = 0
  · simp [ProofBuilder.processResponse, hp]
  · have key : ∀ {dbg : Bool} {r : Bytes}, Contributes dbg r recs → ∃ proof names ttl, handleResponse dbg r b.proof [] = ((proof, names), .ok ttl) ∧
        proof = b.proof ++ encode recs ∧ names = signers recs ∧ IsMinTtl ttl recs := by
      intro dbg r hc
      obtain ⟨b', more, hb⟩ := ProofBuilder.processResponse_accepts (b := b) (by omega) hc
      unfold ProofBuilder.processResponse at hb
      rw [if_neg hp] at hb
      cases hh : handleResponse dbg r b.proof [] with
      | mk pn res =>
        obtain ⟨proof, names⟩ := pn
        rw [hh] at hb
        cases res with
        | err x => simp at hb
        | panic => simp at hb
        | ok ttl =>
          obtain ⟨recs', hc', e1, e2, ht⟩ := (handleResponse_ok_iff _ _ _ _ _).mp hh
          cases contributes_unique hc hc'
          exact ⟨proof, names, ttl, rfl, e1, by simpa using e2, ht⟩
    obtain ⟨p1, n1, t1, e1, rfl, rfl, m1⟩ := key h
    obtain ⟨p2, n2, t2, e2, rfl, rfl, m2⟩ := key h'
    have : t1 = t2 := by
      obtain ⟨x, hx, ex⟩ := m1.2
      obtain ⟨y, hy, ey⟩ := m2.2
      have a := m1.1 y hy
      have b := m2.1 x hx
      rw [ey] at a
      rw [ex] at b
      exact UInt32.toNat_inj.mp (by omega)
    subst this
    unfold ProofBuilder.processResponse
    rw [e1, e2]

end Dnssec
