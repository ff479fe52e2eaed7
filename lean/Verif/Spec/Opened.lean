import Verif.Spec.Signature

/-!
# Specification: how signatures are shown

Every operand that can be left out has a bracket in front of it, which is not closed.
-/

namespace Teal.Spec

open Teal Teal.WireSpec Teal.JsonSpec

/-- The operands one after the other, with an opening bracket in front of each that can be left out. -/
def openedText (os : List Operand) : Bytes := spaced (os.map fun o => (if o.optional then b!"[" else []) ++ o.long)

/-- `SignatureHelp` of an opcode, with unclosed brackets. -/
def ShowsOpened (w : Bytes) (os : List Operand) : Json → Prop :=
  IsObj fun ms => Has ms b!"signatures" (IsArr [IsObj fun ss =>
    Has ss b!"label" (IsStr (w ++ b!" " ++ openedText os)) ∧
    (if os = [] then Lacks ss b!"parameters"
      else Has ss b!"parameters" (IsArr (os.map fun o => IsObj fun ps => Has ps b!"label" (IsStr o.name))))])

end Teal.Spec
