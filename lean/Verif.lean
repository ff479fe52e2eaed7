import Verif.Lemmas.Actions
import Verif.Lemmas.Atoi
import Verif.Lemmas.Build
import Verif.Lemmas.Clean
import Verif.Lemmas.Cli
import Verif.Lemmas.Complete
import Verif.Lemmas.Corrupt
import Verif.Lemmas.DapOut
import Verif.Lemmas.DapWire
import Verif.Lemmas.Descent
import Verif.Lemmas.Display
import Verif.Lemmas.Doc
import Verif.Lemmas.Edit
import Verif.Lemmas.Edit2
import Verif.Lemmas.Fault
import Verif.Lemmas.Fields
import Verif.Lemmas.Follow
import Verif.Lemmas.Frame
import Verif.Lemmas.Hints
import Verif.Lemmas.Indent
import Verif.Lemmas.Instr
import Verif.Lemmas.Json
import Verif.Lemmas.Json2
import Verif.Lemmas.Label
import Verif.Lemmas.LangSpec
import Verif.Lemmas.Lexer
import Verif.Lemmas.LexerGrammar
import Verif.Lemmas.LexerMain
import Verif.Lemmas.LexesCompose
import Verif.Lemmas.LexesDet
import Verif.Lemmas.LexesPieces
import Verif.Lemmas.LineEdit
import Verif.Lemmas.LineOps
import Verif.Lemmas.Lines
import Verif.Lemmas.LintRun
import Verif.Lemmas.Linter
import Verif.Lemmas.Literals
import Verif.Lemmas.Lsp
import Verif.Lemmas.Message
import Verif.Lemmas.MessageText
import Verif.Lemmas.Operand
import Verif.Lemmas.OperandFit
import Verif.Lemmas.OperandLine
import Verif.Lemmas.OperandWalk
import Verif.Lemmas.Optimize
import Verif.Lemmas.Parse
import Verif.Lemmas.Process
import Verif.Lemmas.ProcessLine
import Verif.Lemmas.Program
import Verif.Lemmas.Progress
import Verif.Lemmas.Quote
import Verif.Lemmas.Quoted
import Verif.Lemmas.Real
import Verif.Lemmas.Redisplay
import Verif.Lemmas.Rename
import Verif.Lemmas.Reprint
import Verif.Lemmas.Restore
import Verif.Lemmas.Restore2
import Verif.Lemmas.RestoreQuote
import Verif.Lemmas.Route
import Verif.Lemmas.Row
import Verif.Lemmas.Select
import Verif.Lemmas.Shade
import Verif.Lemmas.Signature
import Verif.Lemmas.Snippet
import Verif.Lemmas.Strconv
import Verif.Lemmas.Surplus
import Verif.Lemmas.Text
import Verif.Lemmas.TokenAt
import Verif.Lemmas.Tools
import Verif.Lemmas.Utf8
import Verif.Lemmas.Version
import Verif.Lemmas.VmCame
import Verif.Lemmas.VmEffect
import Verif.Lemmas.VmExec
import Verif.Lemmas.VmFlow
import Verif.Lemmas.VmFrames
import Verif.Lemmas.VmHist
import Verif.Lemmas.VmInv
import Verif.Lemmas.VmPar
import Verif.Lemmas.VmPath
import Verif.Lemmas.VmRun
import Verif.Lemmas.VmSkip
import Verif.Lemmas.VmStack
import Verif.Lemmas.VmStep
import Verif.Lemmas.Why
import Verif.Lemmas.Wire
import Verif.Lemmas.Wire2
import Verif.Lemmas.Wire3
import Verif.Lemmas.WireOut
import Verif.Lemmas.Words
import Verif.Model.Basic
import Verif.Model.Build
import Verif.Model.Cli
import Verif.Model.Compiler
import Verif.Model.Consts
import Verif.Model.Corrupt
import Verif.Model.Dap
import Verif.Model.DapWire
import Verif.Model.Diag
import Verif.Model.Doc
import Verif.Model.Docs
import Verif.Model.Fields
import Verif.Model.Frame
import Verif.Model.Json
import Verif.Model.LangOps
import Verif.Model.LangSpec
import Verif.Model.Lexer
import Verif.Model.Linter
import Verif.Model.Literals
import Verif.Model.Lsp
import Verif.Model.Message
import Verif.Model.Op
import Verif.Model.Operand
import Verif.Model.Parse
import Verif.Model.Print
import Verif.Model.Process
import Verif.Model.Query
import Verif.Model.Quote
import Verif.Model.Range
import Verif.Model.Sarif
import Verif.Model.SarifOut
import Verif.Model.Scan
import Verif.Model.Signature
import Verif.Model.Strconv
import Verif.Model.Tools
import Verif.Model.Utf8
import Verif.Model.Vm
import Verif.Model.VmError
import Verif.Model.Why
import Verif.Model.Wire
import Verif.Model.WireOut
import Verif.Props.Accept
import Verif.Props.Actions
import Verif.Props.Actions2
import Verif.Props.Announce
import Verif.Props.Build
import Verif.Props.Charge
import Verif.Props.CleanTexts
import Verif.Props.Cli
import Verif.Props.CliDbg
import Verif.Props.Commands
import Verif.Props.Compile
import Verif.Props.Complete
import Verif.Props.Corrupt
import Verif.Props.CreateExact
import Verif.Props.Dap
import Verif.Props.Dap2
import Verif.Props.DapExact
import Verif.Props.DapWire
import Verif.Props.Dead
import Verif.Props.Descent
import Verif.Props.Diagnose
import Verif.Props.Display
import Verif.Props.Doc
import Verif.Props.Docs
import Verif.Props.Edit
import Verif.Props.EditorLines
import Verif.Props.Exact
import Verif.Props.Fatal
import Verif.Props.Fault
import Verif.Props.Follow
import Verif.Props.Frame
import Verif.Props.Hints
import Verif.Props.HintsExact
import Verif.Props.Hover
import Verif.Props.Instead
import Verif.Props.Instr
import Verif.Props.Json
import Verif.Props.Kills
import Verif.Props.Label
import Verif.Props.Labels
import Verif.Props.LangOps
import Verif.Props.LangSpec
import Verif.Props.Layout
import Verif.Props.Lexer
import Verif.Props.LintRun
import Verif.Props.LintText
import Verif.Props.Linter
import Verif.Props.LiteralEnd
import Verif.Props.Look
import Verif.Props.Lsp
import Verif.Props.Lsp2
import Verif.Props.Meets
import Verif.Props.Meets2
import Verif.Props.Meets3
import Verif.Props.Message
import Verif.Props.Numbers
import Verif.Props.Operand
import Verif.Props.OperandTold
import Verif.Props.OptimizeExact
import Verif.Props.OptimizeKeeps
import Verif.Props.OptimizeReach
import Verif.Props.Panic
import Verif.Props.Places
import Verif.Props.Prepare
import Verif.Props.Print
import Verif.Props.Process
import Verif.Props.Process2
import Verif.Props.Program
import Verif.Props.Provide
import Verif.Props.Quote
import Verif.Props.Rename
import Verif.Props.RenameExact
import Verif.Props.Restore
import Verif.Props.RestoreQuote
import Verif.Props.Returns
import Verif.Props.Route
import Verif.Props.Sarif
import Verif.Props.SarifOut
import Verif.Props.Scan
import Verif.Props.ScanExact
import Verif.Props.Shade
import Verif.Props.ShadeOnce
import Verif.Props.Signature
import Verif.Props.SignatureExact
import Verif.Props.Snippet
import Verif.Props.SnippetExact
import Verif.Props.Surplus
import Verif.Props.Taken
import Verif.Props.TakenProgram
import Verif.Props.Tools
import Verif.Props.ToolsExit
import Verif.Props.Utf16
import Verif.Props.Utf16Exact
import Verif.Props.VersionExact
import Verif.Props.Vm
import Verif.Props.VmFlow
import Verif.Props.VmFrames
import Verif.Props.VmStack
import Verif.Props.Why
import Verif.Props.WhyExact
import Verif.Props.Wire
import Verif.Props.WireOut
import Verif.Props.Within
import Verif.Spec.Accept
import Verif.Spec.Actions
import Verif.Spec.Announce
import Verif.Spec.Build
import Verif.Spec.Charge
import Verif.Spec.Cli
import Verif.Spec.Compile
import Verif.Spec.Complete
import Verif.Spec.Consts
import Verif.Spec.Corrupt
import Verif.Spec.Cost
import Verif.Spec.Dap
import Verif.Spec.DapWire
import Verif.Spec.Descent
import Verif.Spec.Diagnose
import Verif.Spec.Display
import Verif.Spec.Doc
import Verif.Spec.Docs
import Verif.Spec.Edit
import Verif.Spec.EditorLines
import Verif.Spec.Fatal
import Verif.Spec.Fault
import Verif.Spec.Fields
import Verif.Spec.Flow
import Verif.Spec.Frame
import Verif.Spec.Frames
import Verif.Spec.Hints
import Verif.Spec.HintsExact
import Verif.Spec.Instead
import Verif.Spec.Instr
import Verif.Spec.Json
import Verif.Spec.Kills
import Verif.Spec.Label
import Verif.Spec.LangOps
import Verif.Spec.LangSpec
import Verif.Spec.Lexer
import Verif.Spec.Literals
import Verif.Spec.Lsp
import Verif.Spec.MayReach
import Verif.Spec.Message
import Verif.Spec.Numbers
import Verif.Spec.Opcodes
import Verif.Spec.Opened
import Verif.Spec.Operand
import Verif.Spec.Optimize
import Verif.Spec.Padded
import Verif.Spec.Places
import Verif.Spec.Print
import Verif.Spec.Program
import Verif.Spec.Quote
import Verif.Spec.Real
import Verif.Spec.Rename
import Verif.Spec.Restore
import Verif.Spec.Route
import Verif.Spec.Run
import Verif.Spec.Sarif
import Verif.Spec.SarifOut
import Verif.Spec.Scan
import Verif.Spec.Shade
import Verif.Spec.ShadeOnce
import Verif.Spec.Signature
import Verif.Spec.Snippet
import Verif.Spec.Source
import Verif.Spec.Stack
import Verif.Spec.Surplus
import Verif.Spec.Taken
import Verif.Spec.Text
import Verif.Spec.Told
import Verif.Spec.Tools
import Verif.Spec.Utf16
import Verif.Spec.Vm
import Verif.Spec.Why
import Verif.Spec.Wire
import Verif.Spec.WireOut
import Verif.Spec.Within
import Verif.Spec.Wrapped
import Verif.Tests.Repo
