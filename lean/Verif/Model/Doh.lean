import Verif.Model.Wasm

/-! # Model of the DNS-over-HTTPS client (wasmpack/doh_lookup.js)

Strings are byte sequences in UTF-8. `await init()` (line 9), loading the WASM module, is taken to succeed. -/

namespace Dnssec

/-- What the JavaScript engine contributes: the effect of `JSON.stringify(JSON.parse(x), null, 1)` (`none` if it throws), and the text of
the exception raised when the WASM code panics. -/
structure Js where
  reformat : Bytes → Option Bytes
  trap : Bytes

/-- wasmpack/doh_lookup.js:33-36: what comes of one `fetch` and of reading the body: a body, a response which is not `ok`, or an
exception, by its text. -/
inductive Fetch
  | body (b : Bytes)
  | status (code : Nat)
  | throws (e : Bytes)
deriving DecidableEq

/-- How the promise returned by `lookup_doh` is settled. -/
inductive JsOutcome
  | returns (text : Bytes)
  | undefined
  | rejects
deriving DecidableEq

/-- wasmpack/doh_lookup.js:12-20: the type as a number; `none` if it remains a string. (`toLowerCase` also maps characters beyond ASCII, but
none of them to a letter of the names compared with.) -/
def dohType (ty : Bytes) : Option UInt16 :=
  let ty := lower ty
  if ty = ascii "txt" then some 16
  else if ty = ascii "tlsa" then some 52
  else if ty = ascii "a" then some 1
  else if ty = ascii "aaaa" then some 28
  else none

/-- The characters of base64 (RFC 4648 section 4). -/
def base64Char (v : UInt8) : UInt8 := (ascii "ABCDEFGHIJKLMNOPQRSTUVWXYZabcdefghijklmnopqrstuvwxyz0123456789+/").getD v.toNat 0

/-- `btoa(String.fromCodePoint(...query))`, a function of the JavaScript engine: base64 with padding. -/
def btoa : Bytes → Bytes
  | [] => []
  | [a] => [base64Char (a >>> 2), base64Char ((a &&& 3) <<< 4), 61, 61]
  | [a, b] => [base64Char (a >>> 2), base64Char (((a &&& 3) <<< 4) ||| (b >>> 4)), base64Char ((b &&& 15) <<< 2), 61]
  | a :: b :: c :: rest =>
    base64Char (a >>> 2) :: base64Char (((a &&& 3) <<< 4) ||| (b >>> 4)) :: base64Char (((b &&& 15) <<< 2) ||| (c >>> 6)) ::
      base64Char (c &&& 63) :: btoa rest

/-- wasmpack/doh_lookup.js:31-32: `b64url`. -/
def b64url (query : Bytes) : Bytes :=
  let b64 := btoa query
  let b64 := b64.map (fun c => if c = 43 then 45 else c)
  let b64 := b64.map (fun c => if c = 47 then 95 else c)
  b64.filter (fun c => c ≠ 61)

/-- wasmpack/doh_lookup.js:33: the URL of a query. -/
def dohUrl (endpoint query : Bytes) : Bytes := endpoint ++ (ascii "?dns=" ++ b64url query)

/-- wasmpack/doh_lookup.js:41. -/
def dohFailed (e : Bytes) : Bytes := ascii "{\"error\":\"DoH Query failed: " ++ (e ++ ascii "\"}")

/-- wasmpack/doh_lookup.js:45-52: no query is left. -/
def dohFinish (dbg : Bool) (p : Platform) (fuel : Nat) (js : Js) (pending : Int) (w : WasmBuilder) : Option JsOutcome :=
  if pending = 0 then
    match getUnverifiedProof w with
    | some proof =>
      match verifyByteStream dbg p fuel proof with
      | none => none
      | some (.ok result) =>
        match js.reformat result with
        | some out => some (.returns out)
        | none => some .rejects
      | some _ => some .rejects
    | none => some (.returns (ascii "{\"error\":\"Failed to build proof\"}"))
  else some .undefined

/-- wasmpack/doh_lookup.js:26-54 `send_next_query`, called again at most `rounds` times (`none`: not settled by then, or verification not
finished within `fuel` iterations). `fetch k url` is what comes of the `k`-th request. The result are the URLs requested and the
outcome. -/
def sendNextQuery (dbg : Bool) (p : Platform) (fuel : Nat) (js : Js) (endpoint : Bytes) (fetch : Nat → Bytes → Fetch) :
    Nat → Nat → Int → WasmBuilder → Option (List Bytes × JsOutcome)
  | 0, _, _, _ => none
  | rounds + 1, k, pending, w =>
    match getNextQuery w with
    | (some query, w) =>
      let pending := pending + 1
      let url := dohUrl endpoint query
      match fetch k url with
      | .throws e => some ([url], .returns (dohFailed e))
      | .status code => some ([url], .returns (dohFailed (ascii "Query returned HTTP " ++ decimal code)))
      | .body buf =>
        match processQueryResponse dbg w buf with
        | none => some ([url], .returns (dohFailed js.trap))
        | some w =>
          match sendNextQuery dbg p fuel js endpoint fetch rounds (k + 1) (pending - 1) w with
          | none => none
          | some (urls, out) => some (url :: urls, out)
    | (none, w) =>
      match dohFinish dbg p fuel js pending w with
      | none => none
      | some out => some ([], out)

/-- wasmpack/doh_lookup.js:8-60 `lookup_doh`. -/
def lookupDoh (dbg : Bool) (p : Platform) (fuel rounds : Nat) (js : Js) (domain ty endpoint : Bytes) (fetch : Nat → Bytes → Fetch) :
    Option (List Bytes × JsOutcome) :=
  let domain := if domain.getLast? = some dot then domain else domain ++ [dot]
  match dohType ty with
  | some ty =>
    match initProofBuilder domain ty with
    | none => some ([], .returns (ascii "{\"error\":\"Bad domain\"}"))
    | some builder => sendNextQuery dbg p fuel js endpoint fetch rounds 0 0 builder
  | none => some ([], .returns (ascii "{\"error\":\"Unsupported Type\"}"))

end Dnssec
