import Verif.Model.Http
import Verif.Spec.Json

/-! # Specification of the HTTP interface -/

namespace Dnssec.Spec

open Dnssec

/-- Carriage return, line feed. -/
def crlf : Bytes := [13, 10]

/-- The bytes the client sends before the stream ends or fails. -/
def received : List SockEvent → Bytes
  | [] => []
  | .error :: _ => []
  | .wouldBlock :: evs => received evs
  | .data chunk :: evs => if chunk = [] then [] else chunk ++ received evs

/-- `line` is the part of `bytes` before the first line break, `rest` what follows that. -/
def FirstLine (bytes line rest : Bytes) : Prop :=
  bytes = line ++ crlf ++ rest ∧ ∀ a b, line ++ [13] ≠ a ++ crlf ++ b

/-- There is no line break. -/
def NoLine (bytes : Bytes) : Prop := ∀ a b, bytes ≠ a ++ crlf ++ b

/-- Of the events, `before` and then `chunk` are what arrives until the first line is complete: `chunk` completes it, and `more` is what arrives
together with its end. -/
structure Completes (evs before : List SockEvent) (chunk line more : Bytes) : Prop where
  events : ∃ after, evs = before ++ .data chunk :: after
  open_ : ∀ e ∈ before, e ≠ .error ∧ e ≠ .data []
  incomplete : (received before).length < line.length + 2
  complete : FirstLine (received before ++ chunk) line more

/-- Query parameters as they appear in a URI: `k=v` joined with `&`. -/
def uriParams : List (Bytes × Bytes) → Bytes
  | [] => []
  | [(k, v)] => k ++ [61] ++ v
  | (k, v) :: rest => k ++ [61] ++ v ++ [38] ++ uriParams rest

/-- The last value of a parameter. -/
def lastValue (k : Bytes) (params : List (Bytes × Bytes)) : Option Bytes := (params.filter (fun p => p.1 == k)).getLast?.map (·.2)

/-- Upper and lower case spellings of a type. -/
def Spells (t : Bytes) (mnemonic : Bytes) : Prop := lower t = lower mnemonic

/-- The types that can be asked for. -/
def httpTypes : List (Bytes × UInt16) := [(ascii "TXT", 16), (ascii "TLSA", 52), (ascii "A", 1), (ascii "AAAA", 28)]

/-- A request line that asks for a proof: `GET /dnssecproof?params HTTP/1.x`, where the last `d` is a valid name and the last `t` one of
the types. -/
structure ProofRequest (line : Bytes) (name : Name) (ty : UInt16) : Prop where
  form : ∃ params vers d t mnemonic,
    line = ascii "GET /dnssecproof?" ++ uriParams params ++ [32] ++ vers ∧
    (vers = ascii "HTTP/1.1" ∨ vers = ascii "HTTP/1.0") ∧
    params ≠ [] ∧
    (∀ p ∈ params, (61 ∉ p.1 ∧ 38 ∉ p.1 ∧ 32 ∉ p.1) ∧ (38 ∉ p.2 ∧ 32 ∉ p.2)) ∧
    lastValue (ascii "d") params = some d ∧ Denotes d name ∧
    lastValue (ascii "t") params = some t ∧ Spells t mnemonic ∧ (mnemonic, ty) ∈ httpTypes

/-- RFC 9112: a response message with the given status, header fields and body. -/
structure HttpResponse (out status : Bytes) (headers : List (Bytes × Bytes)) (body : Bytes) : Prop where
  form : out = ascii "HTTP/1.1 " ++ status ++ crlf ++ (headers.map (fun h => h.1 ++ ascii ": " ++ h.2 ++ crlf)).flatten ++ crlf ++ body
  clean : (∀ c ∈ status, c ≠ 13 ∧ c ≠ 10) ∧ ∀ h ∈ headers, (∀ c ∈ h.1, c ≠ 13 ∧ c ≠ 10 ∧ c ≠ 58) ∧ ∀ c ∈ h.2, c ≠ 13 ∧ c ≠ 10

/-- The value is the decimal number. -/
def IsDecimal (n : Nat) (v : Bytes) : Prop := IntText v n

end Dnssec.Spec
