import Verif.Model.Process
import Verif.Model.Diag

/-!
# The scanner's report (`cmd/tealsarif/main.go`)

What the file system holds is a parameter.  The texts of messages and the marshalling
to JSON are in `Model/SarifOut.lean`.
-/

namespace Teal.Sarif

/-- An entry that `filepath.WalkDir` visits: its path and whether it is a directory. -/
structure DirEntry where
  path : Bytes
  dir : Bool
deriving DecidableEq, Repr

/-- What `os.Stat` says about the path to scan; of a directory the entries in the order
`filepath.WalkDir` visits them. -/
inductive Root where
  | missing
  | dir (entries : List DirEntry)
  | file (path : Bytes)
deriving DecidableEq, Repr

/-- The file system: the path to scan, `os.ReadFile` and `filepath.Abs`, where `none` is an
error. -/
structure Files where
  root : Root
  read : Bytes → Option Bytes
  abs : Bytes → Option Bytes

/-- The loop of `filepath.Ext` over the path from its end; `acc` is what is behind. -/
def extLoop (acc : Bytes) : Bytes → Bytes
  | [] => []
  | c :: cs => if c = 47 then [] else if c = 46 then c :: acc else extLoop (c :: acc) cs

/-- `filepath.Ext`: what begins at the last dot of the last element of the path. -/
def ext (p : Bytes) : Bytes := extLoop [] p.reverse

/-- `ToSarifLevel` (main.go:21-34). -/
def level : Severity → Bytes
  | .info => b!"note"
  | .hint => b!"note"
  | .warn => b!"warning"
  | .err => b!"error"

/-- `Diagnostic.Rule` (lexer.go:154, parser.go:37, process.go:3260, 3271, 3311) with the `Id` of the
rules (linter.go:284-532). -/
def ruleId : DiagKind → Bytes
  | .lex _ => b!"SYNTAX"
  | .parse _ => b!"PARSE"
  | .mode _ => b!"LINT0007"
  | .version _ _ => b!"LINT0008"
  | .lint (.duplicateLabel _) => b!"LINT0001"
  | .lint (.unusedLabel _) => b!"LINT0002"
  | .lint .unreachable => b!"LINT0003"
  | .lint .bJustBefore => b!"LINT0004"
  | .lint (.missingLabel _) => b!"LINT0005"
  | .lint .infiniteLoop => b!"LINT0005"
  | .lint .pragmaAfterInstr => b!"LINT0006"

/-- The rules listed, with their descriptions (main.go:43-65, linter.go:284-551). -/
def ruleTable : List (Bytes × Bytes) :=
  [(b!"SYNTAX", b!"Syntax checks"), (b!"PARSE", b!"Parser checks"),
   (b!"LINT0001", b!"Checks for duplicate labels in a single TEAL source file"),
   (b!"LINT0002", b!"Checks for labels that are never referenced in the code"),
   (b!"LINT0003", b!"Checks for ops after an unconditional branch call"),
   (b!"LINT0004", b!"Checks for redundant branch calls that are placed just before their target labels"),
   (b!"LINT0005", b!"Checks infinite loops presence"), (b!"LINT0006", b!"Checks proper #pragma usage"),
   (b!"LINT0007", b!"Checks opcode availability in the current mode (app or logicsig)"),
   (b!"LINT0008", b!"Checks opcode is available in the current version")]

/-- Their ids. -/
def rules : List Bytes := ruleTable.map (·.1)

/-- `url.shouldEscape` in paths. -/
def shouldEscape (c : UInt8) : Bool :=
  !((97 ≤ c ∧ c ≤ 122) ∨ (65 ≤ c ∧ c ≤ 90) ∨ (48 ≤ c ∧ c ≤ 57) ∨ c ∈ b!"-_.~" ∨ c ∈ b!"$&+,/:;=@")

/-- A digit of `url.escape`. -/
def upperHex (n : UInt8) : UInt8 := if n < 10 then 48 + n else 55 + n

/-- `url.escape` in paths. -/
def escape : Bytes → Bytes
  | [] => []
  | c :: cs => if shouldEscape c then 37 :: upperHex (c / 16) :: upperHex (c % 16) :: escape cs else c :: escape cs

/-- `URL.String` of a URL with the scheme `file` and an absolute path (main.go:112-117). -/
def fileUri (ab : Bytes) : Bytes := b!"file://" ++ escape ab

/-- `sarif.Result`, with its one location; instead of the message the finding it is made of. -/
structure Result where
  kind : DiagKind
  rule : Bytes
  level : Bytes
  uri : Bytes
  index : Nat
  line : Nat
  column : Nat
deriving DecidableEq, Repr

/-- `sarif.Run`: the ids of the rules, the uris of the artifacts, and the results. -/
structure Run where
  rules : List Bytes
  artifacts : List Bytes
  results : List Result
deriving DecidableEq, Repr

/-- How the scan ends: with an error (which `main` turns into a panic), with a panic of `Process`,
or by printing a report. -/
inductive Scan where
  | failed
  | panicked
  | report (r : Run)
deriving DecidableEq, Repr

/-- The paths to scan (main.go:79-99). -/
def paths : Root → Option (List Bytes)
  | .missing => none
  | .dir es => some ((es.filter fun e => !e.dir && (ext e.path == b!".teal")).map (·.path))
  | .file p => some [p]

/-- The result for the diagnostic `d`, the `i`-th of its file (main.go:127-147). -/
def result (up : Bytes) (d : Diag) (i : Nat) : Result :=
  { kind := d.kind, rule := ruleId d.kind, level := level (severity d.kind), uri := up, index := i, line := d.l + 1, column := d.b + 1 }

/-- The loop over the paths (main.go:101-149). -/
def scanLoop (env : Env) (fs : Files) (run : Run) : List Bytes → Scan
  | [] => .report run
  | p :: ps =>
    match fs.read p with
    | none => .failed
    | some s =>
      match process env s with
      | none => .panicked
      | some res =>
        match fs.abs p with
        | none => .failed
        | some ab =>
          let up := fileUri ab
          scanLoop env fs { run with
            artifacts := run.artifacts ++ [up]
            results := run.results ++ res.diagnostics.zipIdx.map fun x => result up x.1 x.2 } ps

/-- `run` (main.go:36-162). -/
def scan (env : Env) (fs : Files) : Scan :=
  match paths fs.root with
  | none => .failed
  | some ps => scanLoop env fs { rules := rules, artifacts := [], results := [] } ps

end Teal.Sarif
