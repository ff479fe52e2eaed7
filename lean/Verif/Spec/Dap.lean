import Verif.Model.Dap
import Verif.Spec.Vm

/-!
# Specification: sessions with the debug adapter
-/

namespace Teal.Spec

open Teal.Dap

/-- `Sends env ms outs d`: the client sent the messages `ms`, the adapter sent `outs` and is in the
state `d`, or has crashed. -/
inductive Sends (env : Env) : List Msg → List Sent → Option Dbg → Prop
  | new : Sends env [] [] (some Dbg.new)
  | msg {ms : List Msg} {outs : List Sent} {d : Dbg} (m : Msg) {r : Outcome} : Sends env ms outs (some d) →
      Handles env d m r → Sends env (ms ++ [m]) (outs ++ r.outs) r.next

/-- The messages of kind `launch` of a file that can be read. -/
def launchOf : Msg → Option (Bytes × Bytes)
  | ⟨_, .launch (some name) (some src)⟩ => some (name, src)
  | _ => none

/-- The requests among `outs` that are answered: `request_seq` of the responses. -/
def answers (outs : List Sent) : List Int := outs.filterMap fun o => o.response.map (·.1)

/-- The commands the adapter knows. -/
def KnownCommand : Command → Prop
  | .plain name => name ∈ [b!"disconnect", b!"evaluate", b!"setFunctionBreakpoints", b!"setInstructionBreakpoints",
      b!"setExceptionBreakpoints", b!"configurationDone"]
  | .other => False
  | _ => True

/-- In the state `d` the command gets just the response `body`, whatever its number. -/
def Responds (env : Env) (d : Dbg) (cmd : Command) (body : Payload) : Prop :=
  ∀ seq, (∃ r, Handles env d ⟨seq, cmd⟩ r) ∧ ∀ r, Handles env d ⟨seq, cmd⟩ r →
    ∃ o d', r.outs = [o] ∧ o.response = some (seq, true) ∧ o.body = body ∧ r.next = some d'

/-- A scope of a branch, as a client sees it. -/
inductive ScopeKind where
  | state | stack | scratch | trace
deriving DecidableEq, Repr

/-- The titles of the scopes. -/
def ScopeKind.title : ScopeKind → Bytes
  | .state => b!"State"
  | .stack => b!"Stack"
  | .scratch => b!"Scratch"
  | .trace => b!"Trace"

/-- `Entry v b k n x`: the scope `k` of the branch `b` has at index `n` the entry `x`.  Stack slots
are numbered from the bottom; unused scratch slots are not shown. -/
inductive Entry (v : Vm) (b : VmBranch) : ScopeKind → Nat → Shown → Prop
  | budget : Entry v b .state 0 (.budget b.budget)
  | stack {n : Nat} {x : VmValue} : b.stack.reverse[n]? = some x → Entry v b .stack n (.value x)
  | scratch {n : Nat} {x : VmValue} : v.scratch[n]? = some x → x.t ≠ .none → Entry v b .scratch n (.value x)
  | trace {n : Nat} {o : Op} : b.trace[n]? = some o → Entry v b .trace n (.op o)

/-- The lines of a stack trace, innermost first: where the branch is, and where each active call
was made. -/
def activeLines (b : VmBranch) : List (Option Nat) := b.line :: b.frames.map (·.ret)

/-- The arguments of a request are there and make sense in the state `d`: something is debugged
where that is needed, lines are not before the first one, and windows are within the scope. -/
def Sensible (env : Env) (d : Dbg) : Command → Prop
  | .initialize args => args ≠ none
  | .launch args file => args ≠ none ∧ ∀ src, file = some src → process env src ≠ none
  | .setBreakpoints args => d.vm ≠ none → ∃ src lns, args = some (src, lns) ∧ ∀ ln ∈ lns, d.lz ≤ ln
  | .pause => d.vm ≠ none
  | .continue_ args => d.vm ≠ none → args ≠ none
  | .next args => d.vm ≠ none ∧ args ≠ none
  | .variables args => ∃ a, args = some a ∧ 0 ≤ a.start.getD 0 ∧ ∀ c, a.count = some c → ∀ mc, d.vm = some mc →
      a.start.getD 0 + c ≤ mc.tvm.scratch.length ∧ ∀ b ∈ mc.tvm.branches, a.start.getD 0 + c ≤ b.trace.length
  | .scopes args => d.vm ≠ none → args ≠ none
  | .stackTrace args => d.vm ≠ none → args ≠ none
  | _ => True

end Teal.Spec
