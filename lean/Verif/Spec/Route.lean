import Verif.Spec.Vm
import Verif.Spec.Cost

/-!
# Specification: where the branches of the debugger's machine go

As the AVM (`Step`), with two exceptions: a branch that is created by an instruction with several continuations knows of
no calls, and `retsub` without a call goes on with the next line.
-/

namespace Teal.Spec

open Teal

/-- Passing the lines `j … x - 1`, a branch named `n` takes the name of the last label there, if there is one. -/
def Passes (l : List Op) (j x : Nat) (n n' : Bytes) : Prop :=
  (n' = n ∧ ∀ y m, j ≤ y → y < x → ¬ DefinedAt l m y) ∨
  (∃ y, j ≤ y ∧ y < x ∧ DefinedAt l n' y ∧ ∀ z m, y < z → z < x → ¬ DefinedAt l m z)

/-- Where a branch goes on: the line, its name, and the calls it is in, the innermost first: the line behind the call, and
the name the branch had there. -/
abbrev Place := Nat × Bytes × List (Nat × Bytes)

/-- Where a branch at the instruction `o` goes on after it. -/
inductive GoesOn (l : List Op) : Op → Place → Place → Prop
  | next {o i n cs} : ¬ NoFallThrough o → GoesOn l o (i, n, cs) (i + 1, n, cs)
  | jump {t i n cs j} : LastDefined l t j → GoesOn l (.branch .b t) (i, n, cs) (j, n, cs)
  | call {t i n cs j} : LastDefined l t j → GoesOn l (.branch .callsub t) (i, n, cs) (j, n, (i + 1, n) :: cs)
  | ret {i n r m cs} : GoesOn l (.plain .retsub) (i, n, (r, m) :: cs) (r, m, cs)
  /-- there is nowhere to return to -/
  | fall {i n} : GoesOn l (.plain .retsub) (i, n, []) (i + 1, n, [])

/-- `Route l again tr c`: a branch that has executed the instructions `tr`, one after the other, goes on at `c`.  With
`again`, instructions may have failed; these are tried again. -/
inductive Route (l : List Op) (again : Bool) : List Op → Place → Prop
  | start : Route l again [] (0, b!"(main)", [])
  | on {tr j n cs i n' o c} : Route l again tr (j, n, cs) → FirstFrom l j i → Passes l j i n n' → At l i o →
      GoesOn l o (i, n', cs) c → Route l again (tr ++ [o]) c
  /-- a new branch, at one of the labels -/
  | fork {tr j n cs i o ts t x} : Route l again tr (j, n, cs) → FirstFrom l j i → At l i o → Forks o ts → t ∈ ts → LastDefined l t x →
      Route l again (tr ++ [o]) (x, t, [])
  /-- an instruction that has failed -/
  | failed {tr j n cs i o} : again = true → Route l again tr (j, n, cs) → FirstFrom l j i → At l i o →
      Route l again (tr ++ [o]) (j, n, cs)

/-- The calls a branch is in, by its frames. -/
def callsOf (b : VmBranch) : List (Nat × Bytes) :=
  b.frames.map fun f => (match f.ret with | some i => i + 1 | none => 0, f.name)

/-- Why a branch is at no line. -/
inductive Ended (l : List Op) (version : Nat) (again : Bool) (b : VmBranch) : Prop
  /-- there are no more instructions -/
  | behind {j n cs} : Route l again b.trace (j, n, cs) → NoneFrom l j → b.name = b!"(exited)" → Ended l version again b
  /-- the next instruction costs more than is left; what `json_ref` costs is left open -/
  | broke {j n cs i o} : Route l again b.trace (j, n, cs) → FirstFrom l j i → At l i o →
      ((∃ c, Cost version o b.stack c ∧ b.budget < c) ∨ ∃ f, o = .field .jsonRef f) → b.name = b!"(exited)" → Ended l version again b
  /-- `return` or `err` -/
  | halted {tr j n cs i o} : b.trace = tr ++ [o] → Route l again tr (j, n, cs) → FirstFrom l j i → At l i o → Halts o →
      b.name = b!"(exited)" → Ended l version again b
  /-- the label is not defined -/
  | lost {tr j n cs i o t} : b.trace = tr ++ [o] → Route l again tr (j, n, cs) → FirstFrom l j i → At l i o →
      (o = .branch .b t ∨ o = .branch .callsub t) → (∀ x, ¬ DefinedAt l t x) → Passes l j i n b.name → Ended l version again b
  /-- the label the branch was created for is not defined -/
  | stray {tr j n cs i o ts} : b.trace = tr ++ [o] → Route l again tr (j, n, cs) → FirstFrom l j i → At l i o → Forks o ts →
      b.name ∈ ts → (∀ x, ¬ DefinedAt l b.name x) → Ended l version again b

end Teal.Spec
