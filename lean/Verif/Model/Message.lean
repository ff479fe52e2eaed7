import Verif.Model.Parse
import Verif.Model.Linter
import Verif.Model.Print

/-!
# Model: the texts of diagnostics

`Diagnostic.String` is the text of the error it is made of.
-/

namespace Teal

/-- The texts passed to `Lexer.fail` (lexer.go:164, 231, 251). -/
def LexMsg.text : LexMsg → Bytes
  | .incompleteString => b!"incomplete string"
  | .incompleteComment => b!"incomplete comment"

/-- The texts of the errors of the parser: process.go:951, 956, 985, 3210, 3287, 3291.  The errors of
operands (process.go:933, 969, 1004-1351) are wrapped errors of strconv, of the decoders and of the SDK:
`operand` stands for their text. -/
def ParseWhy.text (operand : Bytes) : ParseWhy → Bytes
  | .missingQuotes => b!"missing quotes"
  | .badVersion => b!"version must be at least 1"
  | .unknownPragma text => b!"unexpected #pragma: " ++ text
  | .missingLabelName => b!"missing label name"
  | .tooManyValues => b!"too many values"
  | .unknownOpcode text => b!"unknown opcode: " ++ text
  | .missingArg | .badUint64 | .badUint8 | .badInt8 | .badField | .badBytes | .badAddr => operand

/-- `ProgramMode.String` (process.go:843-852). -/
def ProgramMode.text : ProgramMode → Bytes
  | .app => b!"application"
  | .sig => b!"logicsig"

/-- The `Error` methods of linter.go:61-212. -/
def LintRule.text : LintRule → Bytes
  | .duplicateLabel name => b!"duplicate label: \"" ++ name ++ b!"\""
  | .unusedLabel name => b!"unused label: \"" ++ name ++ b!"\""
  | .unreachable => b!"unreachable code"
  | .bJustBefore => b!"unconditional branch just before the target label"
  | .missingLabel name => b!"missing label: \"" ++ name ++ b!"\""
  | .infiniteLoop => b!"infinite loop"
  | .pragmaAfterInstr => b!"#pragma version is only allowed before instructions"

/-- `Diagnostic.String` (lexer.go:146-148, parser.go:29-31, 65-67) with the texts of process.go:3255 and 3266. -/
def DiagKind.text (operand : Bytes) : DiagKind → Bytes
  | .lex msg => msg.text
  | .parse why => why.text operand
  | .mode m => b!"opcode not available in the current mode: " ++ m.text
  | .version min cur => b!"opcode requires version >= " ++ formatUint min ++ b!" (current: " ++ formatUint cur ++ b!")"
  | .lint rule => rule.text

/-- `RedundantLine.String` (linter.go:21-23, 33-35). -/
def RedundantLine.text : RedundantLine → Bytes
  | .label _ name => b!"Remove label '" ++ name ++ b!"'"
  | .b _ => b!"Remove b call"

end Teal
