import Verif.Model.Query
import Verif.Spec.Wire

/-! # Specification of buffers, queries, responses and proof building -/

namespace Dnssec.Spec

open Dnssec

/-! ### Byte buffers -/

/-- The operations on a buffer: append a slice, or overwrite the contents in place through `DerefMut`. -/
inductive BufOp
  | extend (sl : Bytes)
  | write (new : Bytes)

/-- What the operations do to a plain byte vector; `none` if it would get longer than 65535 bytes or is overwritten with
contents of another length. -/
def vecRun : Bytes → List BufOp → Option Bytes
  | v, [] => some v
  | v, .extend sl :: ops => if v.length + sl.length ≤ 65535 then vecRun (v ++ sl) ops else none
  | v, .write new :: ops => if new.length = v.length then vecRun new ops else none

/-- The same operations on a `QueryBuf`; `none` is a panic. -/
def bufRun {L : UInt16} : QueryBuf L → List BufOp → Option (QueryBuf L)
  | q, [] => some q
  | q, .extend sl :: ops => (q.extendFromSlice sl).bind (bufRun · ops)
  | q, .write new :: ops => (q.overwrite new).bind (bufRun · ops)

/-! ### DNS messages (RFC 1035 4.1, RFC 4035 3.2.3) -/

/-- The flag word of a message header. -/
structure Flags where
  qr : Bool
  opcode : Nat
  tc : Bool
  ad : Bool
  rcode : Nat
deriving DecidableEq

/-- RFC 1035 4.1.1, RFC 2535 6.1: QR is bit 15 (most significant), OPCODE bits 14 to 11, TC bit 9, AD bit 5, RCODE bits 3 to 0. -/
def flagsOf (w : UInt16) : Flags where
  qr := w.toNat / 32768 % 2 = 1
  opcode := w.toNat / 2048 % 16
  tc := w.toNat / 512 % 2 = 1
  ad := w.toNat / 32 % 2 = 1
  rcode := w.toNat % 16

/-- `resp` is a message with the given header fields and question; `body` are the sections after the question. -/
def IsMessage (resp : Bytes) (id flags questions answers authorities additional : UInt16) (qname : Name) (qtype qclass : UInt16)
    (body : Bytes) : Prop :=
  ∃ afterHeader, resp = be16 id ++ (be16 flags ++ (be16 questions ++ (be16 answers ++ (be16 authorities ++
    (be16 additional ++ afterHeader))))) ∧ ReadsName resp afterHeader qname (be16 qtype ++ (be16 qclass ++ body))

/-- `k` records with their TTLs, read one after the other. -/
inductive Records (dbg : Bool) (msg : Bytes) : Nat → Bytes → List (RR × UInt32) → Bytes → Prop
  | nil (rest : Bytes) : Records dbg msg 0 rest [] rest
  | cons {k : Nat} {inp mid rest : Bytes} {r : RR × UInt32} {rs : List (RR × UInt32)} :
      ReadsRecord dbg msg inp r mid → Records dbg msg k mid rs rest → Records dbg msg (k + 1) inp (r :: rs) rest

/-- Authority records that belong into a proof: NSEC, NSEC3, and signatures over those types. -/
def denialRecord : RR → Bool
  | .nsec _ => true
  | .nsec3 _ => true
  | .rrsig s => decide (s.ty.toNat = 47) || decide (s.ty.toNat = 50)
  | _ => false

/-- The message is accepted, and `recs` are the records it contributes: all answers and the denial records of the authority
section. -/
def Contributes (dbg : Bool) (resp : Bytes) (recs : List (RR × UInt32)) : Prop :=
  ∃ flags answers authorities additional qname qtype qclass body mid rest ans auth,
    IsMessage resp 0 flags 1 answers authorities additional qname qtype qclass body ∧
    (flagsOf flags).qr = true ∧ (flagsOf flags).opcode = 0 ∧ (flagsOf flags).tc = false ∧ (flagsOf flags).ad = true ∧
    ((flagsOf flags).rcode = 0 ∨ (flagsOf flags).rcode = 8) ∧ 1 ≤ answers.toNat ∧
    Records dbg resp answers.toNat body ans mid ∧ Records dbg resp authorities.toNat mid auth rest ∧
    recs = ans ++ auth.filter (fun r => denialRecord r.1)

/-- The proof encoding of a list of records. -/
def encode (recs : List (RR × UInt32)) : Bytes := (recs.map (fun r => writeRR r.1 r.2)).flatten

/-- The signer names of the RRSIGs among the records. -/
def signers (recs : List (RR × UInt32)) : List Name :=
  recs.filterMap (fun r => match r.1 with | .rrsig s => some s.keyName | _ => none)

/-- `ttl` is the smallest TTL among the records. -/
def IsMinTtl (ttl : UInt32) (recs : List (RR × UInt32)) : Prop := (∀ r ∈ recs, ttl.toNat ≤ r.2.toNat) ∧ ∃ r ∈ recs, r.2 = ttl

/-! ### Histories of a `ProofBuilder` -/

/-- A history of calls of `process_response` on the builder for `(name, ty)`: the responses accepted (`Ok`) and rejected (`Err`)
so far, all queries issued so far, and the builder. -/
inductive Run (dbg : Bool) (name : Name) (ty : UInt16) : List Bytes → List Bytes → List Bytes → ProofBuilder → Prop
  | new : Run dbg name ty [] [] [(ProofBuilder.new name ty).2] (ProofBuilder.new name ty).1
  | accept {acc rej qs : List Bytes} {b b' : ProofBuilder} {resp : Bytes} {more : List Bytes} : Run dbg name ty acc rej qs b →
      b.processResponse dbg resp = (b', .ok more) → Run dbg name ty (acc ++ [resp]) rej (qs ++ more) b'
  | reject {acc rej qs : List Bytes} {b b' : ProofBuilder} {resp : Bytes} : Run dbg name ty acc rej qs b →
      b.processResponse dbg resp = (b', .err ()) → Run dbg name ty acc (rej ++ [resp]) qs b'

/-- The names that signed some record contributed by the accepted responses, each once. -/
def AllSigners (dbg : Bool) (acc : List Bytes) (ks : List Name) : Prop :=
  ks.Nodup ∧ ∀ k, k ∈ ks ↔ ∃ resp ∈ acc, ∃ recs, Contributes dbg resp recs ∧ k ∈ signers recs

/-- What has to be asked about a signer: its DNSKEY set, and its DS set unless it is the root. -/
def questions (k : Name) : List (Name × UInt16) := if k.bytes = [46] then [(k, 48)] else [(k, 48), (k, 43)]

/-- The wire form of a query (RFC 1035 4.1, RFC 6891 6.1.2) for the name with encoding `w`: id 0, RD and AD set, one question, one
additional record; the question with class IN; an OPT record with the DO bit. -/
def queryMessage (w : Bytes) (ty : UInt16) : Bytes :=
  [0, 0] ++ [0x01, 0x20] ++ [0, 1] ++ [0, 0] ++ [0, 0] ++ [0, 1] ++ w ++ be16 ty ++ [0, 1] ++
  ([0] ++ [0, 41] ++ [0, 0] ++ [0, 0, 0x80, 0] ++ [0, 0])

/-- RFC 1035 4.2.2: messages over TCP are prefixed with their length. -/
def frame (m : Bytes) : Bytes := UInt8.ofNat (m.length / 256) :: UInt8.ofNat (m.length % 256) :: m

end Dnssec.Spec
