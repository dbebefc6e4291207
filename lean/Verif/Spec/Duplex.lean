import Verif.Model.Duplex
import Verif.Spec.Query

/-!
# A TCP connection with buffers of limited size, and a resolver at its other end (C110)

The resolver may answer the queries it has read in any order and with any bytes, also while it is reading and writing.
-/

namespace Dnssec.Spec

open Dnssec

/-- The driver, the two directions of the connection, and the resolver. -/
structure Exchange where
  driver : TcpDriver
  /-- bytes on their way to the resolver -/
  toResolver : Bytes
  /-- bytes on their way to the driver -/
  toDriver : Bytes
  /-- the part of a message that the resolver has read -/
  partialQuery : Bytes
  /-- the queries it has read, in order -/
  queries : List Bytes
  /-- those of them that it has not answered -/
  owed : List Bytes
  /-- the responses it has made, in order -/
  answers : List Bytes
  /-- what it has still to write of them -/
  toWrite : Bytes
deriving DecidableEq

/-- Who does something. -/
inductive Actor where
  | driverWrites
  | driverReads
  | resolverReads
  | resolverAnswers
  | resolverWrites
deriving DecidableEq

/-- What can happen next, if the connection holds at most `roomR` bytes on their way to the resolver and `roomD` bytes on their way to the driver. Bytes are
written and read in pieces of any size; a message that is being read is read up to its end at most. -/
inductive Step (dbg : Bool) (roomR roomD : Nat) : Actor → Exchange → Exchange → Prop
  | driverWrites {x : Exchange} {b : ProofBuilder} {left : Bytes} {k : Nat} : x.driver = .sending b left → 0 < k → k ≤ left.length →
      x.toResolver.length + k ≤ roomR →
      Step dbg roomR roomD .driverWrites x { x with driver := x.driver.wrote k, toResolver := x.toResolver ++ left.take k }
  | driverReads {x : Exchange} {b : ProofBuilder} {got chunk rest : Bytes} : x.driver = .reading b got → x.toDriver = chunk ++ rest → chunk ≠ [] →
      chunk.length ≤ stillToRead got →
      Step dbg roomR roomD .driverReads x { x with driver := x.driver.received dbg chunk, toDriver := rest }
  | resolverReads {x : Exchange} {chunk rest : Bytes} : x.toResolver = chunk ++ rest → chunk ≠ [] → chunk.length ≤ stillToRead x.partialQuery →
      stillToRead (x.partialQuery ++ chunk) ≠ 0 →
      Step dbg roomR roomD .resolverReads x { x with toResolver := rest, partialQuery := x.partialQuery ++ chunk }
  | resolverReadsLast {x : Exchange} {chunk rest q : Bytes} : x.toResolver = chunk ++ rest → chunk ≠ [] → q.length ≤ 65535 →
      x.partialQuery ++ chunk = frame q →
      Step dbg roomR roomD .resolverReads x { x with toResolver := rest, partialQuery := [], queries := x.queries ++ [q], owed := x.owed ++ [q] }
  | resolverAnswers {x : Exchange} {before after : List Bytes} {q response : Bytes} : x.owed = before ++ q :: after → response.length ≤ 65535 →
      Step dbg roomR roomD .resolverAnswers x { x with owed := before ++ after, answers := x.answers ++ [response], toWrite := x.toWrite ++ frame response }
  | resolverWrites {x : Exchange} {chunk rest : Bytes} : x.toWrite = chunk ++ rest → chunk ≠ [] → x.toDriver.length + chunk.length ≤ roomD →
      Step dbg roomR roomD .resolverWrites x { x with toWrite := rest, toDriver := x.toDriver ++ chunk }

/-- The beginning: `build_proof` has connected. -/
def Exchange.start (name : Name) (ty : UInt16) : Exchange := ⟨.start name ty, [], [], [], [], [], [], []⟩

/-- What can have happened after `n` steps. -/
inductive Reaches (dbg : Bool) (roomR roomD : Nat) (name : Name) (ty : UInt16) : Nat → Exchange → Prop
  | start : Reaches dbg roomR roomD name ty 0 (.start name ty)
  | step {n : Nat} {x y : Exchange} {a : Actor} : Reaches dbg roomR roomD name ty n x → Step dbg roomR roomD a x y → Reaches dbg roomR roomD name ty (n + 1) y

end Dnssec.Spec
