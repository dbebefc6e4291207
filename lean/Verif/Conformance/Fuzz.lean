import Verif.Conformance.Primitives
import Verif.Model.DebugQuery

/-! # The crashing inputs kept in `/repo/fuzz/test_cases/parse_response`, run on the model

Inputs that once made `handle_response` panic or overflow the stack. The code at this commit, and so the model, rejects them, in release
and in debug builds (as it does all responses with bad names, by C73 and C77). -/

namespace Dnssec.Conformance

open Dnssec

/-- SIGABRT.PC.7ffff7e42d3c.STACK.1b2d5a02ed.CODE.-6.ADDR.0.INSTR.mov____%eax,%ebp.fuzz -/
def crash1 : Bytes := ofNat 292 0x424280e00001c0ffffc0c0c0c0c0c0c0c0c0c0c0c0c0c0c0c0c0c0c0c0c0c0c0c0c0c0c0c0c0c0c0c0c0c0c0c0c0c0c0c0c0c0c0c0c0c0c0c0c0c0c0c0c0c0c0c0c0c0c0c0c0c0c0c0c0c0c0c0c0c0c0c0c0c0c0c0c0c0c0c0c0c0c0c0c0c0c0c0c0c0c0c0c0c0c0c0c0c0c0c0c0c0c0c0c0c0c0c0c0c0c0c0c0c0c0c0c0c0c0c0c0c0c0c0c0c0c0c0c0c0c0c0c0c0c0c0c0c0c0c0c0c0c0c0c0c0c0c0c0c0c0c0c0c0c0c0c0c0c0c0c0c0c0c0c0c0c0c0c0c0c0c0c0c0c0c0c0c0c0c0c0c0c0c0c0c0c0c0c0c0c0c0c0c0c0c0c0c0c0c0c0c0c0c0c00000c02d34e755234b0d0d0d0d0d0d0d0d0d0d0d0d0d00000000000000080d0d0d0d0d0d0d0d0d0d0d0d0d0d413602000000000000020000000000000000cd3e9d9e4ba96417b046eb068ef23600

theorem crash1_rejected : (handleResponse false crash1 [] []).2 = .err () ∧ (handleResponseD crash1 [] []).2 = .err () := by
  decide +kernel

/-- SIGABRT.PC.7ffff7e42d3c.STACK.c7bb77f34.CODE.-6.ADDR.0.INSTR.mov____%eax,%ebp.fuzz -/
def crash2 : Bytes := ofNat 32 0x424280e000010073085e00000000000000000010000100000008000000000000

theorem crash2_rejected : (handleResponse false crash2 [] []).2 = .err () ∧ (handleResponseD crash2 [] []).2 = .err () := by
  decide +kernel

/-- SIGABRT.PC.7ffff7e42d3c.STACK.cbd61ac64.CODE.-6.ADDR.0.INSTR.mov____%eax,%ebp.fuzz -/
def crash3 : Bytes := ofNat 132 0x424280e000010073085e00000000000000000010000100000008000000000000ff0000000000000000000000000000000000000200000000c02d34e755234b0d0d0d0d0d0d0d0d0d0d0d0d0d0d0d0d0d0db20d0d0d0d0d0d0d0d413602000000000000020000000000000000093e9d9e4ba96417b046eb06ffffffffffffffff8ef23600

theorem crash3_rejected : (handleResponse false crash3 [] []).2 = .err () ∧ (handleResponseD crash3 [] []).2 = .err () := by
  decide +kernel

/-- SIGSEGV.PC.5555555998f9.STACK.1a75cee75b.CODE.1.ADDR.7fffff7feff8.INSTR.push___%rbx.fuzz -/
def crash4 : Bytes := ofNat 292 0x424280e00001c0ffffc0c0c0c0c0c0c0c0c0c0c0c0c0c0c0c0c0c0c0c0c0c0c0c0c0c0c0c0c0c0c0c0c0c0c0c0c0c0c0c0c0c0c0c0c0c0c0c0c0c0c0c0c0c0c0c0c0c0c0c0c0c0c0c0c0c0c0c0c0c0c0c0c0c0c0c0c0c0c0c0c0c0c0c0c0c0c0c0c0c0c0c0c0c0c0c0c0c0c0c0c0c0c0c0c0c0c0c0c0c0c0c0c0c0c0c0c0c0c0c0c0c0c0c0c0c0c0c0c0c0c0c0c0c0c0c0c0c0c0c0c0c0c0c0c0c0c0c0c0c0c0c0c0c0c0c0c0c0c0c0c0c0c0c0c0c0c0c0c0c0c0c0c0c0c0c0c0c0c0c0c0c0c0c0c0c0c0c0c0c0c0c0c0c0c0c0c0c0c0c0c0c0c0c0c00000c02d34e755234b0d0d0d0d0d0d0d0d0d0d0d0d0d00000000000000080d0d0d0d0d0d0d0d0d0d0d0d0d0d413602000000000000020000000000000000cd3e9d9e4ba96417b046eb068ef23600

theorem crash4_rejected : (handleResponse false crash4 [] []).2 = .err () ∧ (handleResponseD crash4 [] []).2 = .err () := by
  decide +kernel

end Dnssec.Conformance
