import Verif.Proofs.Write
import Verif.Props.Http

/-! # C88: what arrives at a client of the HTTP server -/

namespace Dnssec.Props

open Dnssec Spec

variable {dbg : Bool} {resolve : Name → UInt16 → Option (Bytes × UInt32)} {evs : List SockEvent} {writes : List WriteEvent}
  {asked : List (Name × UInt16)} {out : Bytes}

/-- **C88.** If no write fails, the client receives exactly the response (C50), in whatever pieces it is written. -/
theorem C88_complete (h : serve dbg resolve evs = .done asked out) (hw : Live out.length writes) :
    deliver dbg resolve evs writes = some out := by
  rcases deliver_spec dbg resolve evs with ⟨hp, _⟩ | ⟨asked', bufs, hs, hd⟩
  · rw [hp] at h; exact absurd h (by simp)
  · rw [hs] at h
    obtain ⟨_, rfl⟩ := Served.done.inj h
    rw [hd, writeEach_live bufs hw]

/-- **C88 (partial).** If the connection is gone for good once a write fails, the client receives an initial part of the response.
Missing: writes that succeed after one that failed, for which this is false. -/
theorem C88_prefix_partial (h : serve dbg resolve evs = .done asked out) (hw : Permanent writes) :
    ∃ got, deliver dbg resolve evs writes = some got ∧ got <+: out := by
  rcases deliver_spec dbg resolve evs with ⟨hp, _⟩ | ⟨asked', bufs, hs, hd⟩
  · rw [hp] at h; exact absurd h (by simp)
  · rw [hs] at h
    obtain ⟨_, rfl⟩ := Served.done.inj h
    exact ⟨_, hd writes, writeEach_prefix bufs hw⟩

/-- A request whose response is written a few bytes at a time, and then the connection fails. -/
example : ∃ asked out, serve true (fun _ _ => some ([7, 8, 9], 300)) [.data (exLine ++ crlf)] = .done asked out ∧
    Live out.length (List.replicate 200 (.takes 3)) ∧ Permanent [.takes 5, .fails, .takes 0] ∧
    deliver true (fun _ _ => some ([7, 8, 9], 300)) [.data (exLine ++ crlf)] [.takes 5, .fails, .takes 0] = some (ascii "HTTP/") := by
  refine ⟨[(⟨ascii "a."⟩, 16)], httpProof [7, 8, 9] 300, by decide +kernel, ⟨?_, by decide +kernel⟩, ?_, by decide +kernel⟩
  · intro e he
    rw [List.eq_of_mem_replicate he]
    rintro (h | h) <;> cases h
  · intro before e after h ht
    match before, h with
    | [], h => cases h; rcases ht with h | h <;> cases h
    | [_], h => cases h; simp [TakesNothing]
    | [_, _], h => cases h; simp
    | _ :: _ :: _ :: _, h => simp at h

/-- **C88 is false** for writes that succeed after one that failed: the result of writing the header is ignored, and the client receives the bare proof. -/
theorem C88_fails_after_failed_write (line : Bytes) (name : Name) (ty : UInt16) (proof : Bytes) (ttl : UInt32)
    (hr : readRequest [] evs = .request line) (hd : decideBuf dbg line = some (.lookup name ty)) (hp : resolve name ty = some (proof, ttl)) :
    deliver dbg resolve evs (.fails :: List.replicate proof.length (.takes 1)) = some proof := by
  have hhead : (httpProofHead proof ttl).isEmpty = false := rfl
  have hlive : Live ([proof] : List Bytes).flatten.length (List.replicate proof.length (.takes 1)) := by
    refine ⟨fun e he => ?_, by simp⟩
    rw [List.eq_of_mem_replicate he]
    rintro (h | h) <;> cases h
  have := writeEach_live [proof] hlive
  simp only [List.flatten_cons, List.flatten_nil, List.append_nil] at this
  simp only [deliver, hr, hd, answerWrites, hp]
  rw [writeEach]
  simp only [writeAll, hhead, Bool.false_eq_true, if_false, List.nil_append, this]

/-- For example. -/
example : deliver true (fun _ _ => some ([7, 8, 9], 300)) [.data (exLine ++ crlf)] (.fails :: List.replicate 3 (.takes 1)) = some [7, 8, 9] :=
  C88_fails_after_failed_write (exLine ++ crlf) ⟨ascii "a."⟩ 16 [7, 8, 9] 300 (by decide +kernel) (by decide +kernel) rfl

end Dnssec.Props
