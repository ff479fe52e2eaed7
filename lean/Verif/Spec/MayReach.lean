import Verif.Spec.Compile

/-!
# Specification: the lines a program may come to
-/

namespace Teal.Spec

/-- The lines a program may come to from its first, where a `retsub` may go on behind any call it
may have come to. -/
inductive MayReach (l : List Op) : Nat → Prop
  | start : MayReach l 0
  | step {i j : Nat} {rs rs' : List Nat} : MayReach l i → (∀ r ∈ rs, MayReach l r) → Step l (i, rs) (j, rs') → MayReach l j
  /-- behind a call -/
  | back {i j r : Nat} {rs rs' : List Nat} : MayReach l i → (∀ r ∈ rs, MayReach l r) → Step l (i, rs) (j, rs') → r ∈ rs' → MayReach l r

end Teal.Spec
