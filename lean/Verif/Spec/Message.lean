import Verif.Spec.Numbers
import Verif.Model.Parse

/-!
# Specification: what diagnostics say
-/

namespace Teal.Spec

open Teal

/-- A problem with an operand: its message is the message of a library, with something in front. -/
inductive OfOperand : DiagKind → Prop
  | missing : OfOperand (.parse .missingArg)
  | uint64 : OfOperand (.parse .badUint64)
  | uint8 : OfOperand (.parse .badUint8)
  | int8 : OfOperand (.parse .badInt8)
  | field : OfOperand (.parse .badField)
  | bytes : OfOperand (.parse .badBytes)
  | addr : OfOperand (.parse .badAddr)

/-- `Tells k m`: the message of a diagnostic that is not about an operand. -/
inductive Tells : DiagKind → Bytes → Prop
  | string : Tells (.lex .incompleteString) b!"incomplete string"
  | comment : Tells (.lex .incompleteComment) b!"incomplete comment"
  | quotes : Tells (.parse .missingQuotes) b!"missing quotes"
  | badVersion : Tells (.parse .badVersion) b!"version must be at least 1"
  | pragma (w : Bytes) : Tells (.parse (.unknownPragma w)) (b!"unexpected #pragma: " ++ w)
  | labelName : Tells (.parse .missingLabelName) b!"missing label name"
  | surplus : Tells (.parse .tooManyValues) b!"too many values"
  | opcode (w : Bytes) : Tells (.parse (.unknownOpcode w)) (b!"unknown opcode: " ++ w)
  | app : Tells (.mode .app) b!"opcode not available in the current mode: application"
  | sig : Tells (.mode .sig) b!"opcode not available in the current mode: logicsig"
  | version (min cur : Nat) (m c : Bytes) : DecimalOf min m → DecimalOf cur c →
      Tells (.version min cur) (b!"opcode requires version >= " ++ m ++ b!" (current: " ++ c ++ b!")")
  | duplicate (n : Bytes) : Tells (.lint (.duplicateLabel n)) (b!"duplicate label: \"" ++ n ++ b!"\"")
  | unused (n : Bytes) : Tells (.lint (.unusedLabel n)) (b!"unused label: \"" ++ n ++ b!"\"")
  | missing (n : Bytes) : Tells (.lint (.missingLabel n)) (b!"missing label: \"" ++ n ++ b!"\"")
  | unreachable : Tells (.lint .unreachable) b!"unreachable code"
  | useless : Tells (.lint .bJustBefore) b!"unconditional branch just before the target label"
  | loop : Tells (.lint .infiniteLoop) b!"infinite loop"
  | late : Tells (.lint .pragmaAfterInstr) b!"#pragma version is only allowed before instructions"

/-- How the messages that are not about operands begin. -/
def heads : List Bytes :=
  [b!"incomplete ", b!"missing quotes", b!"version must be", b!"unexpected #pragma", b!"missing label", b!"too many values",
   b!"unknown opcode", b!"opcode ", b!"duplicate label", b!"unused label", b!"unreachable code", b!"unconditional branch",
   b!"infinite loop", b!"#pragma version"]

/-- The message of a problem with an operand begins differently. -/
def Foreign (m : Bytes) : Prop := ∀ p ∈ heads, ¬ p <+: m

end Teal.Spec
