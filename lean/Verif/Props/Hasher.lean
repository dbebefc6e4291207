import Verif.Proofs.Sig
import Verif.Proofs.Denial
import Verif.Proofs.QueryBuf
import Verif.Spec.Hasher

/-!
# C81: digests computed piece by piece
-/

namespace Dnssec.Props

open Dnssec.Spec

variable {e : Engines} {p : Platform} {H1 H2 H5 : Bytes → Bytes}

theorem updates_sha1 (s : e.sha1.State) (l : List Bytes) :
    l.foldl Hasher.update (.sha1 s : Hasher e) = .sha1 (l.foldl e.sha1.input s) := by
  induction l generalizing s with
  | nil => rfl
  | cons a l ih => exact ih _

theorem updates_sha256 (s : e.sha256.State) (l : List Bytes) :
    l.foldl Hasher.update (.sha256 s : Hasher e) = .sha256 (l.foldl e.sha256.input s) := by
  induction l generalizing s with
  | nil => rfl
  | cons a l ih => exact ih _

theorem updates_sha512 (s : e.sha512.State) (l : List Bytes) :
    l.foldl Hasher.update (.sha512 s : Hasher e) = .sha512 (l.foldl e.sha512.input s) := by
  induction l generalizing s with
  | nil => rfl
  | cons a l ih => exact ih _

/-- **C81.** A hasher gives the hash, with the algorithm it was made for, of the concatenation of all the pieces it was given. -/
theorem C81_hash_of_concatenation (h1 : Computes e.sha1 H1) (h2 : Computes e.sha256 H2) (h5 : Computes e.sha512 H5)
    (pieces : List Bytes) :
    (pieces.foldl Hasher.update (Hasher.newSha1 e)).finish.asRef = H1 pieces.flatten ∧
    (pieces.foldl Hasher.update (Hasher.newSha256 e)).finish.asRef = H2 pieces.flatten ∧
    (pieces.foldl Hasher.update (Hasher.newSha512 e)).finish.asRef = H5 pieces.flatten := by
  refine ⟨?_, ?_, ?_⟩
  · rw [Hasher.newSha1, updates_sha1]; exact h1 pieces
  · rw [Hasher.newSha256, updates_sha256]; exact h2 pieces
  · rw [Hasher.newSha512, updates_sha512]; exact h5 pieces

theorem blockEngine_computes (size : Nat) (compress : Bytes → Bytes → Bytes) (iv : Bytes) (pad : Nat → Bytes → Bytes) :
    Computes (blockEngine size compress iv pad)
      (fun m => (blockEngine size compress iv pad).digest ((blockEngine size compress iv pad).input (iv, [], 0) m)) := by
  intro pieces
  simp only [blockEngine, List.foldl_flatten]

/-- Met by every hash that works on blocks; here is one with blocks of 4 bytes, cut in two ways. -/
example : let e := blockEngine 4 (fun h b => List.zipWith (· + ·) h b) [1, 2, 3, 4] (fun n r => (r ++ [0x80, 0, 0, 0]).take 3 ++ [n.toUInt8])
    e.digest ([[1, 2], [3, 4, 5], [6]].foldl e.input e.start) = [7, 10, 134, 14] ∧
    e.digest ([[1, 2, 3, 4, 5, 6]].foldl e.input e.start) = [7, 10, 134, 14] := by decide

theorem ds_pieces (h : Hasher e) (k : DnsKey) :
    ((((h.writeName k.name.bytes).update (be16 k.flags)).update [k.protocol]).update [k.alg]).update k.pubkey =
      (writeNameSlices k.name.bytes ++ [be16 k.flags, [k.protocol], [k.alg], k.pubkey]).foldl Hasher.update h := by
  simp only [Hasher.writeName, List.foldl_append, List.foldl_cons, List.foldl_nil]

theorem ds_pieces_flatten (k : DnsKey) :
    (writeNameSlices k.name.bytes ++ [be16 k.flags, [k.protocol], [k.alg], k.pubkey]).flatten = digestInput k := by
  rw [← dsHashInput_eq, dsHashInput, List.flatten_append, writeNameSlices_flatten]
  simp

/-- **C81.** The digest compared with a DS record is, for digest type 2, the SHA-256 of the owner name and the RDATA of the key
(RFC 4034 5.1.4); for type 1 the SHA-1 of it, if SHA-1 is to be used; there is none otherwise. -/
theorem C81_ds_digest (h1 : Computes e.sha1 H1) (h2 : Computes e.sha256 H2) (allowSha1 : Bool) (k : DnsKey) (digestType : UInt8) :
    dsDigestS e allowSha1 digestType k =
      if digestType = 2 then some (H2 (digestInput k))
      else if digestType = 1 ∧ allowSha1 = true then some (H1 (digestInput k)) else none := by
  unfold dsDigestS dsHasher
  by_cases a : digestType = 2
  · subst a
    simp only [show ¬ ((2 : UInt8) = 1 ∧ allowSha1 = true) from fun h => absurd h.1 (by decide), if_false, if_true]
    rw [ds_pieces, Hasher.newSha256, updates_sha256, ← ds_pieces_flatten]
    exact congrArg some (h2 _)
  · simp only [if_neg a]
    split
    · next ctx heq =>
      split at heq
      · exact absurd heq (by simp)
      · next hc => rw [if_neg hc]
    · next ctx heq =>
      split at heq
      · next hc =>
        rw [if_pos hc]
        cases heq
        rw [ds_pieces, Hasher.newSha1, updates_sha1, ← ds_pieces_flatten]
        exact congrArg some (h1 _)
      · cases heq

/-- **C81.** The hash of a name in NSEC3 is the iterated SHA-1 of RFC 5155 of the wire form of the name, with the salt appended
in every round. -/
theorem C81_nsec3_hash (h1 : Computes e.sha1 H1) (name salt : Bytes) (iterations : UInt16) :
    nsec3HashS e name salt iterations = iteratedHash H1 salt (nameWire name) iterations.toNat := by
  have key : ∀ (n k : Nat) (h : Hasher e), h.finish.asRef = iteratedHash H1 salt (nameWire name) k →
      (nsec3LoopS e salt n h).finish.asRef = iteratedHash H1 salt (nameWire name) (k + n) := by
    intro n
    induction n with
    | zero => intro k h hh; exact hh
    | succ n ih =>
      intro k h hh
      have := ih (k + 1) (((Hasher.newSha1 e).update h.finish.asRef).update salt) (by
        have := h1 [h.finish.asRef, salt]
        simp only [List.flatten_cons, List.flatten_nil, List.append_nil] at this
        rw [iteratedHash, ← hh, ← this]
        rfl)
      rw [nsec3LoopS]
      rw [this]
      congr 1
      omega
  have h0 : (((Hasher.newSha1 e).writeName name).update salt).finish.asRef = iteratedHash H1 salt (nameWire name) 0 := by
    have e1 : ((Hasher.newSha1 e).writeName name).update salt = (writeNameSlices name ++ [salt]).foldl Hasher.update (Hasher.newSha1 e) := by
      simp only [Hasher.writeName, List.foldl_append, List.foldl_cons, List.foldl_nil]
    have e2 := h1 (writeNameSlices name ++ [salt])
    rw [List.flatten_append, writeNameSlices_flatten] at e2
    rw [e1, Hasher.newSha1, updates_sha1, iteratedHash, ← writeName_eq_nameWire]
    simp only [List.flatten_cons, List.flatten_nil, List.append_nil] at e2
    exact e2
  have := key iterations.toNat 0 _ h0
  rw [Nat.zero_add] at this
  exact this

/-- **C81.** So it makes no difference for the verification whether the hashes are computed at once, as in the rest of the model, or
piece by piece: the same keys are vouched for and the same names are denied. -/
theorem C81_same_decisions (h1 : Computes e.sha1 p.sha1) (h2 : Computes e.sha256 p.sha256) :
    (∀ dses k ds, dsMatchesS e dses k ds = dsMatches p dses k ds) ∧
    ∀ name salt iterations, nsec3HashS e name salt iterations = nsec3Hash p name salt iterations := by
  constructor
  · intro dses k ds
    unfold dsMatchesS dsMatches
    rw [C81_ds_digest h1 h2, dsHashInput_eq]
    by_cases a : ds.alg = k.alg
    · by_cases b : k.computeKeyTag = ds.keyTag
      · simp only [a, b, bne_self_eq_false, Bool.false_eq_true, if_false, BEq.rfl, if_true, Bool.true_and]
        by_cases c : ds.digestType = 2
        · simp [c]
        · by_cases d : ds.digestType = 1 ∧ trustSha1 dses = true
          · simp [d]
          · simp [c, d]
      · simp [a, b]
    · simp [a]
  · intro name salt iterations
    rw [C81_nsec3_hash h1, nsec3Hash_eq, ← writeName_eq_nameWire]

/-- An engine that keeps the whole message computes any function; so the conditions can be met for every platform. -/
def wholeEngine (H : Bytes → Bytes) : Engine where
  State := Bytes
  start := []
  input := (· ++ ·)
  digest := H

theorem wholeEngine_computes (H : Bytes → Bytes) : Computes (wholeEngine H) H := by
  intro pieces
  show H (pieces.foldl (· ++ ·) []) = H pieces.flatten
  have : ∀ acc : Bytes, pieces.foldl (· ++ ·) acc = acc ++ pieces.flatten := by
    induction pieces with
    | nil => simp
    | cons a l ih => intro acc; rw [List.foldl_cons, ih]; simp
  rw [this, List.nil_append]

example (p : Platform) : ∃ e : Engines, Computes e.sha1 p.sha1 ∧ Computes e.sha256 p.sha256 :=
  ⟨⟨wholeEngine p.sha1, wholeEngine p.sha256, wholeEngine id⟩, wholeEngine_computes _, wholeEngine_computes _⟩

end Dnssec.Props
