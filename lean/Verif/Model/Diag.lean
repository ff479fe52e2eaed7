import Verif.Model.Parse

/-!
# How severe a diagnostic is (`diag.go`)
-/

namespace Teal

/-- `DiagnosticSeverity` (diag.go:3, 18-23). -/
inductive Severity where
  | err | warn | info | hint
deriving DecidableEq, Repr

/-- The numbers of the constants (diag.go:19-22). -/
def Severity.number : Severity → Nat
  | .err => 1
  | .warn => 2
  | .info => 3
  | .hint => 4

/-- `Diagnostic.Severity` (lexer.go:150, parser.go:33, process.go:3259, 3270, 3310, linter.go:65-232). -/
def severity : DiagKind → Severity
  | .lex _ => .err
  | .parse _ => .err
  | .mode _ => .err
  | .version _ _ => .err
  | .lint (.duplicateLabel _) => .err
  | .lint (.unusedLabel _) => .warn
  | .lint .unreachable => .warn
  | .lint .bJustBefore => .warn
  | .lint (.missingLabel _) => .err
  | .lint .infiniteLoop => .err
  | .lint .pragmaAfterInstr => .err

end Teal
