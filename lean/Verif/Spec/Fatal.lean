import Verif.Spec.Dap

/-!
# Specification: the requests that crash the debug adapter
-/

namespace Teal.Spec

open Teal.Dap

/-- The window a request asks for, in a list of `n` entries, has an index that is not one of an entry. -/
def NoSlice (a : VarArgs) (n : Nat) : Prop :=
  ∃ i : Int, a.start.getD 0 ≤ i ∧ (i < match a.count with | some c => a.start.getD 0 + c | none => n) ∧ (i < 0 ∨ n ≤ i)

/-- What crashes the adapter in the state `d`: arguments that are missing where they are looked at, a file that
cannot be processed, a breakpoint in front of the first line, something to pause or step when nothing is
debugged, and windows that go beyond the scratch space or the trace. -/
def Fatal (env : Env) (d : Dbg) : Command → Prop
  | .initialize args => args = none
  | .launch args file => args = none ∨ ∃ src, file = some src ∧ process env src = none
  | .setBreakpoints args => d.vm ≠ none ∧ (args = none ∨ ∃ src lns ln, args = some (src, lns) ∧ ln ∈ lns ∧ ln < d.lz)
  | .pause => d.vm = none
  | .continue_ args => args = none ∧ ∃ mc w, d.vm = some mc ∧ mc.tvm.Runs w ∧ w.error = none ∧ w.triggered ≠ []
  | .next args => d.vm = none ∨ args = none
  | .variables args => args = none ∨ ∃ a mc b, args = some a ∧ d.vm = some mc ∧ b ∈ mc.tvm.branches ∧
      (a.ref = 3 + 10 * b.id ∧ NoSlice a mc.tvm.scratch.length ∨ a.ref = 4 + 10 * b.id ∧ NoSlice a b.trace.length)
  | .scopes args => d.vm ≠ none ∧ args = none
  | .stackTrace args => d.vm ≠ none ∧ args = none
  | _ => False

end Teal.Spec
