import Verif.Spec.Message
import Verif.Model.Message
import Verif.Lemmas.Strconv

/-!
# Lemmas: the text of a diagnostic
-/

namespace Teal

open Teal.Spec

theorem tells_text (operand : Bytes) {k : DiagKind} (h : ¬ OfOperand k) : Tells k (k.text operand) := by
  cases k with
  | lex msg => cases msg <;> constructor
  | parse why => cases why <;> first | exact absurd (by constructor) h | constructor
  | mode m => cases m <;> constructor
  | version min cur => exact .version _ _ _ _ (formatUint_decimal _) (formatUint_decimal _)
  | lint rule => cases rule <;> constructor

theorem operand_text (operand : Bytes) {k : DiagKind} (h : OfOperand k) : k.text operand = operand := by
  cases h <;> rfl

end Teal
