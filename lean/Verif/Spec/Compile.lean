import Verif.Model.Compiler
import Verif.Spec.Vm

/-!
# Specification: what compiling and optimising should preserve
-/

namespace Teal.Spec

mutual
/-- The instructions in an expression, from left to right. -/
inductive Lists : Expr → List Op → Prop
  | op (o : Op) : Lists (.op o) [o]
  | list {es : List Expr} {l : List Op} : ListsAll es l → Lists (.list es) l
  | nested {es : List Expr} {l : List Op} : ListsAll es l → Lists (.nested es) l
  /-- a function: its label, its `proto`, its body -/
  | func {n : Bytes} {a r : Nat} {es : List Expr} {l : List Op} : ListsAll es l →
      Lists (.func n a r es) (.label n :: .u8u8 .proto a r :: l)
/-- The instructions in a list of expressions. -/
inductive ListsAll : List Expr → List Op → Prop
  | nil : ListsAll [] []
  | cons {e : Expr} {es : List Expr} {l l' : List Op} : Lists e l → ListsAll es l' →
      ListsAll (e :: es) (l ++ l')
end

mutual
/-- There is no block and no function in the expression. -/
inductive Flat : Expr → Prop
  | op (o : Op) : Flat (.op o)
  | list {es : List Expr} : FlatAll es → Flat (.list es)
inductive FlatAll : List Expr → Prop
  | nil : FlatAll []
  | cons {e : Expr} {es : List Expr} : Flat e → FlatAll es → FlatAll (e :: es)
end

/-- The program can execute the instructions `tr`, one after the other, from its start. -/
def Executes (l : List Op) (tr : List Op) : Prop :=
  tr = [] ∨ ∃ tr0 o i rs, tr = tr0 ++ [o] ∧ Walk l (0, []) tr0 (i, rs) ∧ At l i o ∧ ¬ NoOp o

/-- The program can execute the instructions `tr` and then comes to its end. -/
def ExecutesToEnd (l : List Op) (tr : List Op) : Prop := ∃ rs, Walk l (0, []) tr (l.length, rs)

/-- `b` only says where to go on. -/
def isJump : Op → Bool
  | .branch .b _ => true
  | _ => false

/-- What a path does, without the jumps. -/
def visible (tr : List Op) : List Op := tr.filter fun o => !isJump o

/-- Both programs have the same paths, apart from jumps: what one can execute so can the other,
and where one can come to its end so can the other. -/
def SamePaths (l l' : List Op) : Prop :=
  ∀ s, ((∃ tr, Executes l tr ∧ visible tr = s) ↔ (∃ tr, Executes l' tr ∧ visible tr = s)) ∧
    ((∃ tr, ExecutesToEnd l tr ∧ visible tr = s) ↔ (∃ tr, ExecutesToEnd l' tr ∧ visible tr = s))

/-- No label is defined twice. -/
def UniqueLabels (l : List Op) : Prop := ∀ n i j, DefinedAt l n i → DefinedAt l n j → i = j

/-- Every `retsub` is directly behind a label that some instruction refers to. -/
def ReturnsAtLabels (l : List Op) : Prop :=
  ∀ i, At l i (.plain .retsub) → ∃ j n o, i = j + 1 ∧ DefinedAt l n j ∧ o ∈ l ∧ Refers o n

/-- Every label an instruction refers to is defined. -/
def TargetsDefined (l : List Op) : Prop := ∀ o n, o ∈ l → Refers o n → ∃ i, DefinedAt l n i

end Teal.Spec
