import Verif.Model.LangOps
import Verif.Model.LangSpec
import Verif.Spec.Stack
import Verif.Spec.Instr

/-!
# What the rows of the language specification say
-/

namespace Teal.Spec

/-- The types of a list of letters, as in "Args" and "Returns": the top of the stack comes last. -/
def letterTypes (letters : Bytes) : List StackType := letters.map letterType

/-- The immediates of a row, read from its note. -/
def immediates (r : LangOp) : List Imm.ImmArg :=
  match Imm.parseImmArgs r.note with
  | .ok l => l
  | _ => []

/-- Does the text end in `s`? -/
def EndsIn (w s : Bytes) : Prop := w.drop (w.length - s.length) = s

instance (w s : Bytes) : Decidable (EndsIn w s) := inferInstanceAs (Decidable (_ = _))

/-- The immediate of a row that is a field: the first one that is called a field index. -/
def fieldImmediate (r : LangOp) : Nat := (immediates r).findIdx fun a => EndsIn a.name b!" field index}"

/-- Rows with a byte string or an array among their immediates: the number of words is not fixed. -/
def ManyWords (r : LangOp) : Prop := ∃ a ∈ immediates r, a.array = true ∨ a.name = b!"{bytes}"

/-- Opcodes that can also be written with other operands than those of their row: `txn`, `gtxn` and
`gtxns` with the index of an array in addition, `extract` without operands for `extract3`. -/
def OtherForm (w : Bytes) (ws : List Bytes) (n : Nat) : Prop :=
  (w ∈ [b!"txn", b!"gtxn", b!"gtxns"] ∧ ws.length = n + 1) ∨ (w = b!"extract" ∧ ws = [])

/-- Opcodes for which what is taken from the stack and left there depends on the immediate, and is not
given by the row. -/
def depthOps : List Bytes := [b!"bury", b!"popn", b!"dupn", b!"dig", b!"cover", b!"uncover", b!"pushints", b!"pushbytess", b!"match"]

end Teal.Spec
