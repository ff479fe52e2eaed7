import Verif.Model.Basic

/-!
# The protocol's named integer constants
-/

namespace Teal.Spec

/-- Transaction types: number, short name, long name. -/
def txnTypes : List (Nat × Bytes × Bytes) :=
  [(0, b!"unknown", b!"Unknown type. Invalid transaction"),
   (1, b!"pay", b!"Payment"),
   (2, b!"keyreg", b!"KeyRegistration"),
   (3, b!"acfg", b!"AssetConfig"),
   (4, b!"axfer", b!"AssetTransfer"),
   (5, b!"afrz", b!"AssetFreeze"),
   (6, b!"appl", b!"ApplicationCall")]

/-- On-completion actions: number, name. -/
def onCompletions : List (Nat × Bytes) :=
  [(0, b!"NoOp"), (1, b!"OptIn"), (2, b!"CloseOut"), (3, b!"ClearState"),
   (4, b!"UpdateApplication"), (5, b!"DeleteApplication")]

/-- `NamedConst s n`: the word `s` is a name for the number `n`. -/
def NamedConst (s : Bytes) (n : Nat) : Prop :=
  (∃ long, (n, s, long) ∈ txnTypes) ∨ (∃ short, (n, short, s) ∈ txnTypes) ∨
  (n, s) ∈ onCompletions

end Teal.Spec
