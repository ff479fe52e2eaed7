import Verif.Spec.Real

/-!
# Specification: branches that return only from subroutines they have called themselves
-/

namespace Teal.Spec

/-- `Descends l version v k own`: in a session without errors that has led to the state `v`, the branch
`k` has executed the instructions `own` since it was created, never returning from more subroutines
than it had called since then; and the same holds of the branch that created it up to that moment, of
the branch that created that one, and so on.  (`Run` is a sequence of steps.) -/
inductive Descends (l : List Op) (version : Nat) : Vm → Nat → List Op → Prop
  | new : Descends l version (Vm.new l version) 0 []
  | step {v w : Vm} {k : Nat} {own : List Op} {o : Op} : Descends l version v k own → v.step = some w → w.error = none →
      Executed v w k o → NoExcessReturn (own ++ [o]) → Descends l version w k (own ++ [o])
  | fork {v w : Vm} {k k' : Nat} {own : List Op} {o : Op} : Descends l version v k own → v.step = some w → w.error = none →
      Executed v w k o → v.branches.length ≤ k' → k' < w.branches.length → Descends l version w k' []
  | other {v w : Vm} {k : Nat} {own : List Op} : Descends l version v k own → v.step = some w → w.error = none →
      (∀ o, ¬ Executed v w k o) → Descends l version w k own
  | switch {v : Vm} {k : Nat} {own : List Op} (id : Nat) : Descends l version v k own → Descends l version (v.switch id) k own
  | breakpoints {v w : Vm} {k : Nat} {own : List Op} (lns : List Int) : Descends l version v k own → v.setBreakpoints lns = some w →
      Descends l version w k own

/-- A branch that has a value on its stack and budget left is at `dupn 255` (the operand is a byte). -/
def AtDupn255 (v : Vm) (k : Nat) (b : VmBranch) : Prop :=
  v.branches[k]? = some b ∧ (∃ i n, b.line = some i ∧ At v.listing i (.u8 .dupn n) ∧ 255 ≤ n) ∧ b.stack ≠ [] ∧ 1 ≤ b.budget

end Teal.Spec
