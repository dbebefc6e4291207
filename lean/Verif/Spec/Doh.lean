import Verif.Model.Doh
import Verif.Spec.Misc
import Verif.Spec.Wasm

/-! # Specification of the DNS-over-HTTPS client -/

namespace Dnssec.Spec

open Dnssec

/-- The `m` base-64 digits of `x`, most significant first. -/
def digits64 : Nat → Nat → List Nat
  | 0, _ => []
  | m + 1, x => digits64 m (x / 64) ++ [x % 64]

/-- RFC 4648 section 5 characters. -/
def urlChar (v : Nat) : UInt8 := (ascii "ABCDEFGHIJKLMNOPQRSTUVWXYZabcdefghijklmnopqrstuvwxyz0123456789-_").getD v 0

/-- RFC 4648 section 5, "base64url" without padding: the `8n` bits of the data, followed by zero bits up to a multiple of six, six bits
per character. -/
def base64url (d : Bytes) : Bytes :=
  let m := (8 * d.length + 5) / 6
  (digits64 m (beNat d * 2 ^ (6 * m - 8 * d.length))).map urlChar

/-- RFC 8484 4.1: the URL of a query with the GET method, for the URI template `endpoint{?dns}`. -/
def dohGet (endpoint query : Bytes) : Bytes := endpoint ++ ascii "?dns=" ++ base64url query

/-- The types that can be looked up. -/
def dohTypes : List (Bytes × UInt16) := [(ascii "txt", 16), (ascii "tlsa", 52), (ascii "a", 1), (ascii "aaaa", 28)]

/-- `ty` is the name of the type `code`, in any case. -/
def NamesType (ty : Bytes) (code : UInt16) : Prop := (ty.map foldCase, code) ∈ dohTypes

/-- The domain as a name, with a final dot added if there is none. -/
def DomainName (domain : Bytes) (n : Name) : Prop := Denotes (if domain.getLast? = some 46 then domain else domain ++ [46]) n

/-- The first requests were for the queries `asked`, and returned `bodies`. -/
inductive Answered (endpoint : Bytes) (fetch : Nat → Bytes → Fetch) : List Bytes → List Bytes → Prop
  | nil : Answered endpoint fetch [] []
  | snoc {asked bodies : List Bytes} {q b : Bytes} : Answered endpoint fetch asked bodies →
      fetch asked.length (dohGet endpoint q) = .body b → Answered endpoint fetch (asked ++ [q]) (bodies ++ [b])

/-- Values that survive `JSON.parse` and `JSON.stringify`: natural numbers up to 2^53, no other numbers, objects without repeated members
and without members that are array indices (which are reordered). -/
inductive Portable : JVal → Prop
  | nat {n : Nat} : n ≤ 2 ^ 53 → Portable (.nat n)
  | str {s : Bytes} : Portable (.str s)
  | arr {vs : List JVal} : (∀ v ∈ vs, Portable v) → Portable (.arr vs)
  | obj {ms : List (Bytes × JVal)} : (ms.map Prod.fst).Nodup → (∀ m ∈ ms, ∃ c ∈ m.1, ¬ (48 ≤ c.toNat ∧ c.toNat ≤ 57)) →
      (∀ m ∈ ms, Portable m.2) → Portable (.obj ms)
  | bool {b : Bool} : Portable (.bool b)
  | null : Portable .null

/-- What is assumed of the JavaScript engine: `JSON.stringify(JSON.parse(x), null, 1)` is a text for the same value. -/
def Js.Conforms (js : Js) : Prop := ∀ t v, JsonText t v → Portable v → ∃ out, js.reformat t = some out ∧ JsonText out v

end Dnssec.Spec
