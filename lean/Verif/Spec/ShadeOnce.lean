import Verif.Spec.Shade

/-!
# Words that are highlighted twice
-/

namespace Teal.Lsp.Spec

open Teal Teal.Spec

/-- `t` is one of the numbers of an `intcblock` or a `pushints`. -/
def Doubled (ts : List Token) (t : Token) : Prop :=
  ∃ k w i, OperandAt ts k w i t ∧ (w = b!"intcblock" ∨ w = b!"pushints")

end Teal.Lsp.Spec
