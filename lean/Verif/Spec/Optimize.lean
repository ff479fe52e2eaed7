import Verif.Spec.Compile

/-!
# Specification: what optimising removes
-/

namespace Teal.Spec

/-- The second program is the first, whose first line has the number `k`, without the lines `gone`. -/
inductive Without (gone : Nat → Prop) : Nat → List Op → List Op → Prop
  | nil (k : Nat) : Without gone k [] []
  | keep {k : Nat} {o : Op} {l l' : List Op} : ¬ gone k → Without gone (k + 1) l l' → Without gone k (o :: l) (o :: l')
  | drop {k : Nat} {o : Op} {l l' : List Op} : gone k → Without gone (k + 1) l l' → Without gone k (o :: l) l'

/-- Some instruction refers to the label. -/
def Used (l : List Op) (n : Bytes) : Prop := ∃ o ∈ l, Refers o n

/-- The first instruction behind line `i` begins or ends a subroutine. -/
def BeforeFrame (l : List Op) (i : Nat) : Prop :=
  ∃ j, i < j ∧ (At l j (.plain .retsub) ∨ ∃ a r, At l j (.u8u8 .proto a r)) ∧ ∀ x, i < x → x < j → ∃ o, At l x o ∧ NoOp o

/-- A label nothing refers to, except before `retsub` and `proto`; or a `retsub` that is not directly behind a label
something refers to. -/
inductive Needless (l : List Op) (i : Nat) : Prop
  | label (n : Bytes) : At l i (.label n) → ¬ Used l n → ¬ BeforeFrame l i → Needless l i
  | retsub : At l i (.plain .retsub) → (∀ j n, i = j + 1 → At l j (.label n) → ¬ Used l n) → Needless l i

/-- An instruction behind `b`, `return` or `err` with no label between. -/
def Behind (l : List Op) (i : Nat) : Prop :=
  (∃ o, At l i o ∧ ¬ NoOp o) ∧
    ∃ j, j < i ∧ ((∃ n, At l j (.branch .b n)) ∨ At l j (.plain .returnOp) ∨ At l j (.plain .err)) ∧ ∀ x n, j < x → x < i → ¬ At l x (.label n)

/-- A `b` to the next label, with no instruction between. -/
def Short (l : List Op) (i : Nat) : Prop :=
  ∃ n j, At l i (.branch .b n) ∧ i < j ∧ At l j (.label n) ∧ ∀ x, i < x → x < j → ∃ o, At l x o ∧ NoOp o ∧ ∀ m, o ≠ .label m

end Teal.Spec
