import Verif.Model.Vm
import Verif.Spec.Flow

/-!
# Specification: sessions with the debugger's machine

A session starts with a new machine and applies the exported methods in any order.
-/

namespace Teal.Spec

/-- The states a machine for the program `l` can get into. -/
inductive Session (l : List Op) (version : Nat) : Vm → Prop
  /-- `NewVm` -/
  | new : Session l version (Vm.new l version)
  /-- `Step`, if it returns -/
  | step {v w : Vm} : Session l version v → v.step = some w → Session l version w
  /-- `Run`, if it returns -/
  | run {v w : Vm} : Session l version v → v.Runs w → Session l version w
  /-- `Switch` -/
  | switch {v : Vm} (id : Nat) : Session l version v → Session l version (v.switch id)
  /-- `SetBreakpoints`, if it does not panic -/
  | breakpoints {v w : Vm} (lns : List Int) : Session l version v → v.setBreakpoints lns = some w →
      Session l version w

/-- The states a machine can get into without an instruction having failed. -/
inductive Clean (l : List Op) (version : Nat) : Vm → Prop
  | new : Clean l version (Vm.new l version)
  | step {v w : Vm} : Clean l version v → v.step = some w → w.error = none → Clean l version w
  | run {v w : Vm} : Clean l version v → v.Runs w → w.error = none → Clean l version w
  | switch {v : Vm} (id : Nat) : Clean l version v → Clean l version (v.switch id)
  | breakpoints {v w : Vm} (lns : List Int) : Clean l version v → v.setBreakpoints lns = some w →
      Clean l version w

/-- Going on with a session, without an instruction failing. -/
inductive Continues : Vm → Vm → Prop
  | refl (v : Vm) : Continues v v
  | step {v w u : Vm} : Continues v w → w.step = some u → u.error = none → Continues v u
  | run {v w u : Vm} : Continues v w → w.Runs u → u.error = none → Continues v u
  | switch {v w : Vm} (id : Nat) : Continues v w → Continues v (w.switch id)
  | breakpoints {v w u : Vm} (lns : List Int) : Continues v w → w.setBreakpoints lns = some u →
      Continues v u

/-- The states the loop of `Run` goes through before it returns. -/
inductive Visits (v : Vm) : Vm → Prop
  | start : Visits v v
  | next {u w : Vm} : Visits v u → u.branch ≠ none → u.error = none → u.step = some w →
      w.triggered = [] → Visits v w

/-- The branch `b`, selected and at position `k`, is at the instruction `o` on line `i`. -/
structure Selected (v : Vm) (k : Nat) (b : VmBranch) (i : Nat) (o : Op) : Prop where
  branch : v.branch = some k
  get : v.branches[k]? = some b
  line : b.line = some i
  op : At v.listing i o

/-- From line `j` on the first instruction is on line `x`. -/
def FirstFrom (l : List Op) (j x : Nat) : Prop :=
  j ≤ x ∧ (∃ o, At l x o ∧ ¬ NoOp o) ∧ ∀ y, j ≤ y → y < x → ∃ o, At l y o ∧ NoOp o

/-- There is no instruction from line `j` on. -/
def NoneFrom (l : List Op) (j : Nat) : Prop := ∀ y o, j ≤ y → At l y o → NoOp o

/-- Going on at line `j`: the branch is at the first instruction from there on, or at the end of
the program (exited, or about to be found there). -/
def Reaches (l : List Op) (j : Nat) (line : Option Nat) : Prop :=
  (∃ x, line = some x ∧ FirstFrom l j x) ∨
  (NoneFrom l j ∧ ∀ x, line = some x → l.length ≤ x)

/-- The label `n` is defined on line `j` and nowhere behind it. -/
def LastDefined (l : List Op) (n : Bytes) (j : Nat) : Prop :=
  DefinedAt l n j ∧ ∀ j', DefinedAt l n j' → j' ≤ j

/-- Instructions that go on at the next line or at one of some labels. -/
inductive Forks : Op → List Bytes → Prop
  | bnz (t) : Forks (.branch .bnz t) [t]
  | bz (t) : Forks (.branch .bz t) [t]
  | switch (ts) : Forks (.switch ts) ts
  | match_ (ts) : Forks (.match_ ts) ts

/-- Sequences of instructions in which calls and returns match. -/
inductive Balanced : List Op → Prop
  | nil : Balanced []
  | op (o : Op) (s : List Op) : (∀ t, o ≠ .branch .callsub t) → o ≠ .plain .retsub → Balanced s →
      Balanced (o :: s)
  | call (t : Bytes) (a s : List Op) : Balanced a → Balanced s →
      Balanced (.branch .callsub t :: (a ++ .plain .retsub :: s))

def isCall : Op → Bool
  | .branch .callsub _ => true
  | _ => false

def isReturn : Op → Bool
  | .plain .retsub => true
  | _ => false

/-- At no point have there been more returns than calls. -/
def NoExcessReturn (tr : List Op) : Prop :=
  ∀ pre, pre <+: tr → pre.countP isReturn ≤ pre.countP isCall

/-- `Walk l a tr c`: control goes from `a` to `c`, executing the instructions `tr`. -/
inductive Walk (l : List Op) (a : Nat × List Nat) : List Op → Nat × List Nat → Prop
  | refl : Walk l a [] a
  | skip {tr i rs o c} : Walk l a tr (i, rs) → At l i o → NoOp o → Step l (i, rs) c → Walk l a tr c
  | exec {tr i rs o c} : Walk l a tr (i, rs) → At l i o → ¬ NoOp o → Step l (i, rs) c →
      Walk l a (tr ++ [o]) c

end Teal.Spec
