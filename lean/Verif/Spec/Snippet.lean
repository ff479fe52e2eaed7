import Verif.Spec.Signature
import Verif.Spec.Accept

/-!
# Specification: the snippets for whole structures
-/

namespace Teal.Spec

open Teal

/-- The snippet proposes the text `d` for its tab stop `i`. -/
def Proposes (snippet : Bytes) (i : Nat) (d : Bytes) : Prop :=
  ∃ pre ds post, snippet = pre ++ b!"${" ++ ds ++ 58 :: (d ++ 125 :: post) ∧ DecimalOf i ds ∧ ∀ c ∈ d, c ≠ 36 ∧ c ≠ 92 ∧ c ≠ 125

/-- The letter in lower case. -/
def lower (c : UInt8) : UInt8 := if 65 ≤ c ∧ c ≤ 90 then c + 32 else c

/-- Field 25 of a transaction is `OnCompletion`. -/
example : txnFields[25]?.map (·.name) = some b!"OnCompletion" := by decide +kernel

/-- A switch on `OnCompletion` with a label for each of its values, from 0 on, and one to go on at. -/
def dispatch (labels : List Bytes) (then_ : Bytes) : List Op :=
  [.field .txn 25, .switch labels] ++ (labels.dropLast.flatMap fun n => [.label n, .branch .b then_, .empty]) ++
    (labels.getLast?.toList.flatMap fun n => [.label n, .empty]) ++ [.label then_]

end Teal.Spec
