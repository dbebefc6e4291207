import Verif.Model.Query
import Verif.Model.Json
import Verif.Model.Validation

/-! # Model of the WASM bindings (wasmpack/src/lib.rs) -/

namespace Dnssec

/-- wasmpack/src/lib.rs:19 `WASMProofBuilder`; the queue holds the contents of the `QueryBuf`s. -/
structure WasmBuilder where
  builder : ProofBuilder
  queue : List Bytes
deriving DecidableEq

/-- wasmpack/src/lib.rs:26-36 `init_proof_builder`. -/
def initProofBuilder (name : Bytes) (ty : UInt16) : Option WasmBuilder :=
  match Name.tryFrom (if name.getLast? = some dot then name else name ++ [dot]) with
  | some qname =>
    let (builder, initialQuery) := ProofBuilder.new qname ty
    some ⟨builder, [initialQuery]⟩
  | none => none

/-- wasmpack/src/lib.rs:43-53 `process_query_response`; `none` for a panic. -/
def processQueryResponse (dbg : Bool) (w : WasmBuilder) (response : Bytes) : Option WasmBuilder :=
  if response.length < 65535 then
    match w.builder.processResponse dbg response with
    | (b, .ok queries) => some ⟨b, w.queue ++ queries⟩
    | (b, .err ()) => some ⟨b, w.queue⟩
    | (_, .panic) => none
  else some w

/-- wasmpack/src/lib.rs:60-66 `get_next_query`. -/
def getNextQuery (w : WasmBuilder) : Option Bytes × WasmBuilder :=
  match w.queue with
  | query :: queue => (some query, { w with queue := queue })
  | [] => (none, w)

/-- wasmpack/src/lib.rs:71-73 `get_unverified_proof`. -/
def getUnverifiedProof (w : WasmBuilder) : Option Bytes := w.builder.finish.map (·.1)

/-- `{:?}` of a `ValidationError`. -/
def VErr.debug : VErr → Bytes
  | .unsupported => ascii "UnsupportedAlgorithm"
  | .invalid => ascii "Invalid"

/-- The `for (idx, rr) in .. .enumerate()` loop, wasmpack/src/lib.rs:93-96: what is appended for the records from `idx` on. -/
def rrsJson : Nat → List RR → Bytes
  | _, [] => []
  | idx, rr :: rrs => (if idx ≠ 0 then ascii ", " else []) ++ (rr.json ++ rrsJson (idx + 1) rrs)

/-- wasmpack/src/lib.rs:87-98: the result of `do_verify_byte_stream` for verified records. -/
def verifiedJson (v : Verified) : Bytes :=
  ascii "{\"valid_from\": " ++ (decimal v.validFrom ++ (ascii ", \"expires\": " ++ (decimal v.expires ++ (ascii ", \"max_cache_ttl\": " ++
    (decimal v.maxCacheTtl.toNat ++ (ascii ", \"verified_rrs\": [" ++ (rrsJson 0 v.verifiedRrs ++ ascii "]}")))))))

/-- wasmpack/src/lib.rs:77-82. -/
def errorJson (e : VErr) : Bytes := ascii "{\"error\":\"" ++ (e.debug ++ ascii "\"}")

/-- wasmpack/src/lib.rs:77-98 `verify_byte_stream`, with at most `fuel` iterations of the zone loop (`none`: not returned by then). The
result is the text, or a panic. -/
def verifyByteStream (dbg : Bool) (p : Platform) (fuel : Nat) (stream : Bytes) : Option (Res Unit Bytes) :=
  match parseRRStream dbg stream with
  | .panic => some .panic
  | .err () => some (.ok (errorJson .invalid))
  | .ok rrs =>
    match verifyRRStream dbg p fuel rrs with
    | none => none
    | some .panic => some .panic
    | some (.err e) => some (.ok (errorJson e))
    | some (.ok v) => some (.ok (verifiedJson v))

end Dnssec
