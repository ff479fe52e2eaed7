import Verif.Model.Cli
import Verif.Model.Vm

/-!
# The small tools (`debug/tokenize/main.go`, `debug/lint/main.go`, `debug/interpret/main.go`)

Each takes one file and shows what the package makes of it.  `read p` is the content of the file `p`, if it
can be read.  A panic exits with status 2; what is printed to standard error is left out.
-/

namespace Teal.Cli

/-- The constants of `TokenType` (lexer.go:10-16). -/
def kindText : TokenType → Bytes
  | .eol => b!"EOL"
  | .value => b!"Value"
  | .comment => b!"Comment"

/-- One round of the loop at debug/tokenize/main.go:23-31. -/
def tokenLine (t : Token) : Bytes :=
  formatUint (t.l + 1) ++ b!":" ++ formatUint (t.b + 1) ++ b!":" ++ formatUint (t.e + 1) ++ b!": " ++ kindText t.t ++
    (match t.t with
     | .eol => []
     | _ => b!" = " ++ t.v) ++ b!"\n"

/-- `main` with one option `path` (debug/tokenize/main.go:40-49, debug/lint/main.go:11-20,
debug/interpret/main.go:29-38): what it does with the content of the file. -/
def withFile {α : Type} (read : Bytes → Option Bytes) (words : List Bytes) (exits : Nat → α) (f : Bytes → α) : α :=
  match parseFlags [b!"path"] words with
  | .values l =>
    match read (valueOf l b!"path" []) with
    | some src => f src
    | none => exits 2
  | .help => exits 0
  | .wrong => exits 2

/-- `run` (debug/tokenize/main.go:16-38): the exit status and what is printed. -/
def tokenize (read : Bytes → Option Bytes) (words : List Bytes) : Nat × Bytes :=
  withFile read words (·, []) fun src =>
    (0, ((readTokens src).1.map tokenLine).flatten ++ ((readTokens src).2.map fun e => e.msg.text ++ b!"\n").flatten)

/-- `DiagnosticSeverity.String` (diag.go:5-16).  It panics for hints, which no diagnostic is. -/
def severityText : Severity → Bytes
  | .info => b!"info"
  | .warn => b!"warn"
  | .err => b!"error"
  | .hint => []

/-- One round of the loop at debug/lint/main.go:23-25.  `operand d` is the message of `d` if it is about an operand. -/
def diagLine (operand : Diag → Bytes) (d : Diag) : Bytes :=
  formatUint d.l ++ b!":" ++ formatUint d.b ++ b!"-" ++ formatUint d.e ++ b!":" ++ severityText (severity d.kind) ++ b!" " ++
    d.kind.text (operand d) ++ b!"\n"

/-- `main` (debug/lint/main.go:11-26): the exit status and what is printed.  `Process` may print something before
it panics, which is left out. -/
def lint (env : Env) (operand : Diag → Bytes) (read : Bytes → Option Bytes) (words : List Bytes) : Nat × Bytes :=
  withFile read words (·, []) fun src =>
    match process env src with
    | some r => (0, (r.diagnostics.map (diagLine operand)).flatten)
    | none => (2, [])

/-- `run` (debug/interpret/main.go:15-27): the tool ends with this status.  It prints nothing; it has no status if
`Vm.Run` does not return. -/
def interprets (env : Env) (read : Bytes → Option Bytes) (words : List Bytes) (status : Nat) : Prop :=
  withFile read words (status = ·) fun src =>
    match process env src with
    | some r => status = 0 ∧ ∃ w, (Vm.new r.listing r.version).Runs w
    | none => status = 2

end Teal.Cli
