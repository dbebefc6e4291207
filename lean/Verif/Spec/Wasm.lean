import Verif.Model.Wasm
import Verif.Spec.Query
import Verif.Spec.Json

/-! # Specification of the WASM interface -/

namespace Dnssec.Spec

open Dnssec

/-- A call on an initialised `WASMProofBuilder`. -/
inductive WasmCall
  | process (response : Bytes)
  | next

/-- A history of calls: the builder afterwards, and what the calls of `get_next_query` returned, in order. -/
inductive WasmRun (dbg : Bool) (w0 : WasmBuilder) : List WasmCall → WasmBuilder → List (Option Bytes) → Prop
  | init : WasmRun dbg w0 [] w0 []
  | process {calls : List WasmCall} {w w' : WasmBuilder} {got : List (Option Bytes)} {resp : Bytes} : WasmRun dbg w0 calls w got →
      processQueryResponse dbg w resp = some w' → WasmRun dbg w0 (calls ++ [.process resp]) w' got
  | next {calls : List WasmCall} {w w' : WasmBuilder} {got : List (Option Bytes)} {q : Option Bytes} : WasmRun dbg w0 calls w got →
      getNextQuery w = (q, w') → WasmRun dbg w0 (calls ++ [.next]) w' (got ++ [q])

/-- The responses passed in. -/
def responses (calls : List WasmCall) : List Bytes := calls.filterMap fun | .process r => some r | .next => none

/-- `s` is an interleaving of `a` and `b`. -/
inductive Interleaving {α : Type} : List α → List α → List α → Prop
  | nil : Interleaving [] [] []
  | left {a b s : List α} (x : α) : Interleaving a b s → Interleaving (a ++ [x]) b (s ++ [x])
  | right {a b s : List α} (x : α) : Interleaving a b s → Interleaving a (b ++ [x]) (s ++ [x])

/-- The JSON value for a verified stream. -/
def VerifiedVal (v : Verified) (j : JVal) : Prop :=
  ∃ objs, objs.length = v.verifiedRrs.length ∧ (∀ p ∈ v.verifiedRrs.zip objs, JsonOf p.1 p.2) ∧
    j = .obj [(ascii "valid_from", .nat v.validFrom), (ascii "expires", .nat v.expires), (ascii "max_cache_ttl", .nat v.maxCacheTtl.toNat),
      (ascii "verified_rrs", .arr (objs.map .obj))]

end Dnssec.Spec
