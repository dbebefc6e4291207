import Verif.Model.Validation

/-! # What `verify_rr_stream` holds in memory while it runs

The three vectors `res`, `rrs_needing_non_existence_proofs` and `pending_ds_sets` are the only memory of src/validation.rs:350-440 that
outlives an iteration of `'next_zone`. `VState` is the model of all its mutable variables; here are all the values they pass through, also
on runs that fail or do not end. -/

namespace Dnssec

/-- The states `sigLoop` passes through (src/validation.rs:385-438): before the loop over the RRSIGs of a zone and after each of them. -/
def sigStates (dbg : Bool) (p : Platform) (inp : List RR) (zone : Bytes) : List RRSig → VState → List VState
  | [], st => [st]
  | sig :: sigs, st =>
    st :: (if !endsWith sig.name.bytes zone then []
      else
        match verifyRrsig p sig (zoneKeys inp zone) (coveredRecords inp sig) with
        | .err .unsupported => sigStates dbg p inp zone sigs st
        | .err .invalid => []
        | .panic => []
        | .ok () =>
          match acceptSig dbg inp sig (st.note sig) with
          | .ok st' => sigStates dbg p inp zone sigs st'
          | _ => [])

/-- The states of one iteration of `'next_zone` (src/validation.rs:368-439). -/
def doZoneStates (dbg : Bool) (p : Platform) (inp : List RR) (zone : Bytes) (dses : List DS) (st : VState) : List VState :=
  st :: (match verifyDnskeys p (dnskeyRrsigs inp zone) (if zone = [dot] then rootHints else dses) (zoneKeys inp zone) with
    | .ok sig => sigStates dbg p inp zone (zoneRrsigs inp zone) (st.note sig)
    | _ => [])

/-- The states of the `'next_zone` loop in its first `fuel` iterations (src/validation.rs:358-440). -/
def zoneStates (dbg : Bool) (p : Platform) (inp : List RR) : Nat → Bytes → VState → List VState
  | fuel, zone, st =>
    st :: (if zone = [dot] ∨ st.pending ≠ [] then
      match fuel with
      | 0 => []
      | fuel + 1 =>
        let (zone, dses, st) :=
          match st.pending with
          | (z, ds) :: rest => (z.bytes, ds, { st with pending := rest })
          | [] => (zone, [], st)
        doZoneStates dbg p inp zone dses st ++
          (match doZone dbg p inp zone dses st with
          | .ok st => zoneStates dbg p inp fuel zone st
          | _ => [])
    else [])

/-- All that `verify_rr_stream` holds at any time while looking at the first `fuel` zones. -/
def heldStates (dbg : Bool) (p : Platform) (fuel : Nat) (inp : List RR) : List VState := zoneStates dbg p inp fuel [dot] VState.init

end Dnssec
