# Formal model of dragmz/teal in Lean 4

## Approach

The Go code in /repo is read as text and modelled, function by function, as total
computable Lean 4 functions (`lean/Verif/Model/*`).  Specifications that do not mention
the model's helpers live in `lean/Verif/Spec/*`.  Property theorems live in
`lean/Verif/Props/*`, each next to an `example` showing that its hypotheses are met by a
concrete non-trivial case; helper lemmas live in `lean/Verif/Lemmas/*`.

Conventions: a Go `string`/`[]byte` is a `List UInt8`; an error return is a value; a nil
pointer is an explicit case; a Go panic is an explicit outcome; a slice is a list; Go map
iteration order is an arbitrary permutation (statements are about membership or hold for
every order).  `int` is `Int`/`Nat` unbounded unless the property is about wrap-around;
`uint8`/`int8` immediates in the machine are modelled with wrap-around where the code wraps.

When a property is false of the code, the file proves its negation with a concrete witness
and keeps a theorem with suffix `_partial` that states what does hold.

## Plan per property

- **C01 Lexing is lossless** — Model `Lexer` over byte lists incl. Go's UTF-8 rune decoding. Spec: the source is the concatenation of (blanks ++ spelling) for the tokens. Induction on the remaining source.
- **C02 Token positions are real positions** — Same model. Spec counts line breaks in the prefix before a token. False when a string literal contains a line break (witness); `_partial` for sources whose strings have none.
- **C03 Shape of value tokens** — Same model; by cases on how a token was produced.
- **C04 Lexing is compositional over lines** — Same model; a lexing-is-a-fold lemma: state after a prefix ending at a line break determines the rest up to a shift of line numbers.
- **C05 Unterminated strings are the only lexical error** — Same model; error list length and the iff by induction.
- **C06 String literals end where TEAL says they end** — Spec: a literal closes at the first unescaped quote with the usual two-state automaton. False in the code for an even run of backslashes (witness); `_partial` for literals without two adjacent backslashes; `_exact` for all literals: they end where they should unless the body ends in a backslash.
- **C07 Editor line splitting** — Model `splitLines`; spec = recursive splitter on the break grammar; induction.
- **C08 Editor lines and language lines agree** — Relate the two models.
- **C09 Semantic token encoding is decodable** — Model Encode with an arbitrary sorting function satisfying sort.Sort's contract (sorted permutation); decoder is the LSP specification's; induction.
- **C10 Range overlap** — Model Overlaps over integers; iff with existence of a shared position. Multi-line ranges are treated as boxes by the code: witness.
- **C11 Integer literals** — Model strconv.ParseUint base 0 and base 10, FormatUint; spec = positional value of digits.
- **C12 Named integer constants** — Model the two tables; whole-table `decide` lifted by lookup lemma.
- **C13 String literal decoding** — Model parseStringLiteral as the position machine it is; spec = inductive relation for escapes.
- **C14 Hex, base32 and base64 constants** — Model hex/base32/base64 decoding (standard library, modelled from its documentation: stated in trusted base) and parseBytes.
- **C15 Named fields are gated by version** — Model all read*Field functions and tables. False for the `txna` context (no version check, witness); `_partial` for all other contexts.
- **C16 Field names and numbers agree** — Tables as data; injectivity by whole-table decide.
- **C17 Processing never crashes** — Model Process with crash as explicit outcome. False (witness `int 1 2\nfoo:`); partial theorem: no crash when no line has surplus operands.
- **C18 One instruction per source line** — Same; partial.
- **C19 Errors are isolated to their line** — Same; per-line function depends on (line tokens, version, mode) only.
- **C20 Symbols are exactly the label lines** — Same; spec is a filter over lines.
- **C21 Label references and missing labels** — Same plus linter.
- **C22 Version diagnostics** — Same plus opcode tables.
- **C23 Mode diagnostics** — Same.
- **C24 Version pragma** — Same; the stored version is truncated to 8 bits: witness and partial.
- **C25 Diagnostics point into the document** — Same.
- **C26 Printing and reparsing** — Model String of every op and the parser; per-op round trip for the ops whose printer is right, witnesses for the rest.
- **C27 Duplicate label rule** — Model Linter over listings; iff by list lemmas. Go map iteration order is modelled as an arbitrary permutation (results stated as membership).
- **C28 Unused label rule** — Same.
- **C29 Unreachable code rule** — Control-flow graph spec independent of the linter; soundness by induction on paths.
- **C30 Redundant branch rule** — Same CFG spec.
- **C31 Infinite loop rule** — Same CFG spec. canEscape ignores fall-through... soundness by path induction; what is false is refuted.
- **C32 Pragma position rule** — Same.
- **C33 Compilation keeps order** — Model expression trees and compile; equals flattening.
- **C34 Optimising preserves behaviour** — CFG/labelled-transition semantics of listings; simulation per pass; witnesses for removeUnused (drops retsub) and mergeLabels.
- **C35 Optimising keeps branch targets** — Same; witness for mergeLabels and partial theorem for the first three passes.
- **C36 The debugger terminates** — Model Vm.Step for all ops; lexicographic/multiset measure on budgets. dupn 255 does not terminate inside one Execute: explicit divergence outcome, witness; partial for the rest.
- **C37 Budget accounting** — Invariant over steps.
- **C38 Stepping never crashes** — Invariant; panics are modelled outcomes.
- **C39 Both outcomes of a branch are explored** — Step characterisation plus frame property for other branches; forks lose call frames and share scratch: witnesses.
- **C40 Calls return** — Step characterisation; witness for forks inside subroutines.
- **C41 Branch identities** — Invariant.
- **C42 Breakpoints** — Invariant on Triggered.
- **C43 Stack manipulation opcodes** — Spec = AVM stack effect; witnesses for dup2 order, bury.
- **C44 Stack typing** — Iff on pop sequence.
- **C45 The debugger follows the program's control flow** — CFG spec and invariant on Trace.
- **C46 Documents hold the last text** — Refinement to a map from uri to last text.
- **C47 Shutdown protocol** — State machine invariant.
- **C48 Every request is answered once** — State machine, output log.
- **C49 Message framing** — Framing encoder/decoder round trip.
- **C50 Rename** — Edits characterised as set of label occurrences.
- **C51 Debug adapter variable references** — Arithmetic round trip; what breaks for refs is refuted.
- **C52 Debug adapter sequence numbers** — Invariant over output log.
- **C53 SARIF report** — List model; artifact index is the diagnostic's index in the code: witness.
- **C54 Immediate notes** — Model the note lexer as the index machine it is, with checked slices and explicit endless loops; totality for every string, and the result for every note of the grammar in `Spec/LangSpec.lean`.
- **C55 Operand grammar** — Grammar of operands per opcode as a separate table; parser functions proved to accept exactly it.
- **C56 The adapter debugs the file launched** — Invariant over sessions with the adapter: the machine is in a reachable state of the program launched last.
- **C57 Debug requests are answered once** — Case analysis of the handler; sublist invariant over sessions. An unreadable file is not answered: witness.
- **C58 The adapter survives requests** — Case analysis under the condition that the arguments are sensible; crashes outside it are witnesses.
- **C59 Stack traces** — Frames computed from the call stack; the total is a constant in the code: refuted.
- **C60 Breakpoints asked for** — From the specification of the loop that checks lines.
- **C61 Stop events tell where the program stopped** — From C42 and the invariant that triggered breakpoints are where branches are.
- **C62 Frame access** — Invariant over a branch's history since the call: the frame keeps the height of the stack. Slots wrap modulo 256.
- **C63 Returning from a subroutine with proto** — The same invariant with what proto said. Left-over values are not dropped in the code: witness.
- **C64 Stepping a thread** — From the step theorems for the selected branch (C39, C41) carried over to the adapter's states (C56).
- **C65 Lines as the client counts them** — Invariant over sessions: what the last `initialize` that asked for one-based lines did.
- **C66 Launching stops on entry** — From the initial state of the machine.
- **C67 Go to definition** — The reply of the server model characterised by the specification of label words and references.
- **C68 Highlighting a label** — As C67, by membership in the definitions and references of the name.
- **C69 Document symbols** — The symbols of a result are the label words of the lines, by induction over the lines.
- **C70 Reference counts over labels** — The reference counter against a count over the operand words, and the setting as the last one received.
- **C71 Layout does not matter** — The parser of every opcode is shown to depend on the texts of the words only (the words reader of `Lemmas/Words.lean`), then by induction over the lines.
- **C72 A well-formed program is read as written** — The grammar of whole programs is an inductive relation over lists of words (`Spec/Program.lean`); induction over the lines with the version carried along.
- **C73 String literals in programs** — From C72, the relation for escapes and the lexer's grammar of quoted words; a witness for literals that end in a backslash.
- **C74 Renaming keeps the program** — Application of edits specified by offsets (`Spec/Edit.lean`, with uniqueness of the result); induction over the lexer's grammar for replacing words of a text; what each line is read to commutes with renaming.
- **C75 Inlay hints are right** — Field names by opcode and operand as a table independent of the code (`Spec/Hints.lean`); membership in the lists of hints on the words of the text.
- **C76 Fixes for values are offered where they apply** — From the lemmas of C75.
- **C77 Writing a field's name for its number keeps the program** — Replacing one word of a text (`Lemmas/Edit`); reading the name and the number gives the same field, for every opcode with a field operand. `_exact`: where the name is not read the instruction is lost and no other line changes.
- **C78 Writing hex bytes as a string keeps the program** — Replacing one word of a text; the quoted string is read as one word and denotes the bytes; induction over lists of byte constants.
- **C79 Fixes for lines, labels and versions are offered where they apply** — `Spec/Actions.lean` says which lines can go and which version an instruction needs; from C21, C22, C28 and C30.
- **C80 Removing a redundant line keeps the program** — Cutting a text at the start and the end of a line (`Lemmas/LineEdit`): tokens of the parts, versions, instructions; then the argument of C30 for one line.
- **C81 Creating a missing label defines it** — Tokens of the text up to the last line, a line break and the label; the program with more lines.
- **C82 Changing the version puts it in force** — The token kept by `Process` is the one of the last version pragma; replacing a word, inserting a line.
- **C83 Preparing a rename shows the label that will be renamed** — From the places of the labels (C20, C21) and `Overlaps` on a single position.
- **C84 Formatting replaces the whole text by the formatted one** — Cutting a text at the start of a line (`Lemmas/LineEdit`): behind the last line there are only blanks.
- **C85 Completion offers exactly what can stand at the cursor** — `Spec/Complete.lean` says which operand a cursor means and what can be written there; tables of opcodes and fields compared row by row, positions by the order of the words of a line.
- **C86 Hovering shows the documentation of what is under the cursor** — Field tables compared with the documentation, by name and by number.
- **C87 Signature help points at the operand under the cursor** — From the same position lemmas as C85; the recorded opcodes are the first words of lines.
- **C88 Semantic highlighting covers exactly the words and comments that have a meaning, with the right kind** — Track through every parse function what is recorded for each word (`Lemmas/Shade`), compare with the specification by opcode and operand (`Spec/Shade`), lift over the lines, and compose with C09.
- **C89 What the linter says about a text is true of its lines** — Compose C72 (a text is read as written) with the rules C21 and C27 to C32 and the placement of linter errors on lines.
- **C90 Looking does not run the program** — Case analysis of the handler for the requests that look, in any state of the adapter.
- **C91 No errors exactly for valid programs** — `ValidProgram` lists the rules; each kind of diagnostic is equivalent to a violation by C05, C21 to C24, C27, C31, C32, C55 and C72.
- **C92 The diagnostics an editor gets** — The session invariant gives that the cached result is that of the last text; the places come from the grammar of tokens (`lexes_at`), validity from C91.
- **C93 Programs built in Go print as what was asked for** — Model of the building functions and of printing their values; each printed line is read to the instruction (C26's lemmas, and the string and comment cases), and the versions follow by induction over the lines.
- **C94 The language specification agrees with the rest of the package** — The rows of langspec.json as a table; the notes are read with C54; the forms of instructions (C55) are compared with the rows case by case, tables being compared by computation in the kernel, and C44 carries the result to the machine.
- **C95 The debugger's texts show what is known of each value** — The String functions of values are modelled; the texts of a stack are the map of the values' texts, so rearrangements commute with them; the effect of each instruction is read off the model of Execute.
- **C96 What the debugger displays is true of real runs** — A reference machine with real values and uninterpreted hash functions (Spec/Real.lean); a simulation relation between abstract and real stacks, scratch spaces and frames, kept by every step; texts are decoded unambiguously with an invariant on the sources that occur.
- **C97 An error the debugger shows is an error of the real run** — Progress: for a related pair of abstract and real states, if the reference machine can execute the instruction so can the model of Execute, by cases on the instruction; the relation is the one of C96.
- **C98 The debugger can follow every real run** — Induction on the run, keeping a clean session in which the branch is related to the real state (C96), its position is reached from the real position by passing labels, its frames hold the real return addresses and its budget is at least what is left; progress (C97) gives the next step, and a fork of the machine gives the jump.
- **C99 The linter and the debugger agree** — The set of lines the linter takes for reachable is closed under the steps of the machine (with the return addresses of the frames), so it is an invariant of sessions; likewise for the lines of a loop.
- **C100 JSON texts are read and written as the standard says** — A recursive-descent model of the decoder with fuel and of the encoder; the grammar of RFC 8259 with values as an inductive relation; soundness and completeness by induction on fuel and on derivations, with UTF-8 decoding related to scalar values.
- **C101 Requests of the protocol are understood however they are written** — Model json.Unmarshal into a struct as a fold over the members with a table of field decoders that commute; then the result depends only on the member found for each field. The protocol as predicates on JSON values.
- **C102 The server does what the frames of its input ask for, in order** — Combine the reading of frames (C49), of JSON texts (C100) and of messages (C101).
- **C103 What the server writes can be read by the client** — Model the structs that are marshalled as JSON values; the protocol's messages as predicates on JSON values; an invariant that every string the server stores or sends is UTF-8 and every number fits.
- **C104 Executing an offered command does what was offered** — Marshalling of commands composed with C100 and the decoder of executeCommand.
- **C105 Positions and edits mean the same to editors that count UTF-16 code units** — UTF-16 length of UTF-8 texts as a relation; positions and edits with it; they agree with those counted in bytes on ASCII lines.
- **C106 The debug adapter understands requests, however they are spelled** — Model the structs of the adapter as decoders of JSON values (as for C101); requests of the protocol as predicates on JSON values.
- **C107 A debugging session works from bytes to bytes** — Compose framing (C49), decoding (C106), the transitions of the adapter (C51-C61) and the marshalled structs (C100).
- **C108 The scanner prints a report that SARIF tools can read** — Model the loop of json.Indent; induction over the grammar of JSON texts that it only inserts white space; the structs of the report as JSON values; strings other than messages are ASCII.
- **C109 The tools do what their command lines say** — Model flag.Parse for string flags; induction over the words against a grammar of command lines; the exit status by C102 and C47.
- **C110 Messages say what is wrong** — Model the text of every message; show that it determines the problem; reduce to C89, C22 and C23 and, for the words quoted, to the parser of lines.
- **C111 Fixes do what their titles say** — Titles and labels become part of the answers; by cases over the fixes with C28, C30 and C79.
- **C112 The server announces what its settings say** — The configuration is a fold over the history (invariant of sessions); the JSON value of the answer is compared with the specification of capabilities.
- **C113 Signatures describe the syntax of the instruction** — The recording context is modelled as a table of names beside the shapes of the operands. A relation says which words fit a description; equivalence with the reference by cases over the constructors of the reference and over the table of opcodes.
- **C114 Accepting the completion of an opcode inserts an instruction to fill in** — Induction over the placeholders; uniqueness of expansion by induction over the derivation.
- **C115 The snippets insert the structures they are named after** — The snippet is split into plain text and stops, which are expanded one after the other. A lemma on texts laid out with indentation and either line end gives the words of each line; the program they are is valid by C91 and listed by C72.
- **C116 The small tools print everything they find, and what they print can be read back** — Decimals contain no colon, so the places at the beginning of a line are read back. A text in quotes may contain line feeds; if one text went on behind a line feed, both would be in quotes and the columns would give them the same length. The rest follows from C36, C71 and C91.
- **C117 What the server announces it answers, in the form the protocol gives the method** — Only the answer to initialize has capabilities. A checker for the paths of the table shows for the four settings which methods are announced; C48 gives the answer, and the form follows from C103's lemmas.
- **C118 The chain scanner tells about every program** — Induction over blocks and transactions, with the lemmas of C116 about messages.
- **C119 The translator prints a program for a Go file** — Induction over the members; the text of a list with a FuncExpr is a panic.
- **C120 What is said about operands** — A second reading of operands (walkArgs) that returns the first error with its text is shown to fail exactly where the parse functions do, reader by reader and shape by shape; the specification Blames follows the operands of the signature, and both directions are inductions over the words.
- **C121 The editor is told what is wrong with operands** — What the server sends is the list of diagnostics with the texts of operandText (C89, C110); C120 says what these are. That the texts differ from the other messages is shown reader by reader.
- **C122 Why a constant cannot be read** — The functions are modelled again with the cause of the error (Model/Why); by induction they fail where the model of C11 and C13 does, and the cause is that of the specification, which speaks of prefixes of the word.
- **C123 Where reports are below lines with too many words** — A line has one entry or, with a diagnostic about too many values, two (LineFacts.ops); by induction on the lines the entries in front of a line are as many as the lines in front of it and those with too many values.
- **C124 What the debugger does with the instructions it gets wrong** — The specification Instead lists what is taken and left; each entry is proved from the body of the instruction, in both directions (it succeeds iff there is something to do).
- **C125 Where the branches of the debugger go** — An invariant of sessions by induction on the commands: each step either leaves a branch, retires it, fails, or executes an instruction, whose continuation is exec_goes.
- **C126 What the debugger does with frames** — The frame is known from the history (frame_of); the four instructions are evaluated with it, in both directions.
- **C127 Why an instruction fails** — A property of sequences of pops (a panic comes from the first value that does not fit, and nothing else changed) is shown for each instruction; the event is evaluated.
- **C128 Labels are offered with their comments and signatures** — The comments collected when a line is reached and the map from labels to `proto`s are invariants over the lines; completion is C85.
- **C129 What is said about opcodes and fields** — The tables are data of the model; no two groups have a field of the same name and number, by evaluation of the tables, so the text is a function of what is shown; the rest is C86 and the structs on the wire.
- **C130 Base32 constants, and where encoded constants go wrong** — The decoder of a group is characterised by the symbols it reads; packing bits is linear arithmetic, and big-endian numbers of the same length determine their bytes. The offset is computed by a second function that is proved to fail exactly when the decoder does.
- **C131 The word quoted in a message is the word** — Induction over the word, with what is known of the decoder of UTF-8 (C99); literals are prefix-free by induction over the literal.
- **C132 Executing a command changes exactly what it says** — Lsp.execute is modelled for every command; the places come from C20 and the last version pragma from Lemmas/Version.
- **C133 What optimising removes** — Each pass keeps the lines chosen by a mask computed in one traversal; the mask is characterised position by position against a specification by line numbers, by induction on the listing.

## Trusted base

- Lean 4.33.0's kernel.  No axioms are added; no `sorry`, `admit`, `native_decide` or `bv_decide`
  is used.  `decide +kernel` is used for whole finite tables and for concrete witnesses only; the
  kernel evaluates it.
- The reading of the Go source: every definition of the model cites the lines it models, and says
  where it simplifies.
- `Verif/Tests/Repo.lean` runs the repository's own unit tests (`*_test.go`, the files of `examples`) on the model, in the
  kernel, with the outcomes the tests expect.  These are tests of the model's faithfulness; no theorem depends on them.
- Go's standard library, modelled from its documentation and source: `unicode/utf8` (decoding one
  rune), `strconv` (ParseUint, Atoi, FormatUint, Quote), `encoding/hex`, `encoding/base32`,
  `encoding/base64` (decoding), `strings` (TrimSpace, Split, Trim, HasPrefix/HasSuffix, Fields-like
  loops), `sort.Sort` (only its contract: a sorted permutation), `path/filepath.Ext`, `net/url`
  (escaping of a path).
- `types.DecodeAddress` of the Algorand SDK is a parameter (`Env.addrOk`): theorems hold for any
  answer it gives.
- The order in which Go iterates over a map is a parameter (`Env.maps`, `MapOrder`) or a
  nondeterministic relation (`Dap.Continued`): theorems hold for every order.
- Machine integers: `int` is modelled as unbounded; `uint64` literals, `uint8`/`int8` immediates and
  the places where the code converts between them are modelled with their wrap-around.

## What is modelled

| File | Modelled | Not modelled |
|---|---|---|
| `lexer.go` | the lexer, all of it | |
| `lsp/doc.go` | `splitLines` | |
| `range.go`, `semantics.go` | overlap, token encoding | the sorting algorithm (its contract is used) |
| `parser.go`, `process.go` | `readTokens`, the line loop, every opcode parser, pragmas, literals, fields, diagnostics, symbols, references, versions, listing, `SymbolsWithin`-style queries as needed; the texts of messages (`Model/Message.lean`, those about operands in `Model/Operand.lean`), signatures (`Model/Signature.lean`) | the text of the error of the address check inside messages about operands (a parameter; those of `strconv`, `encoding/hex` and `parseStringLiteral` are in `Model/Why.lean`, those of `encoding/base32` and `encoding/base64` in `Model/Corrupt.lean`, `strconv.Quote` in `Model/Quote.lean`) and which characters outside ASCII can be printed |
| `go_algorand.go` | tables of fields, constants and their versions; descriptions and remarks (`Model/Docs.lean`), `addExtra` | |
| `diag.go` | the severities and their numbers (`Model/Diag.lean`) | |
| `expr.go` | every operation: its operands, `String`, `Labels`, `Execute`, `Cost` | - (the building functions have a row of their own) |
| `linter.go` | all rules, the texts of their messages and of redundant lines, their descriptions | - |
| `compiler.go` | `Compile`, the four optimiser passes, `Optimize`, `Listing.String`, `Program.String` | - |
| `expr.go` (building functions, 3703-3872) | all of them, and `FuncExpr.Call` | - |
| `vm.go` | `NewVm`, `Step`, `Run`, `Switch`, `SetBreakpoints`, branches, frames, costs, `String` of values | - |
| `dbg/dbg.go` | the handler of every command, framing of messages; decoding of requests and the structs that are marshalled (`Model/DapWire.lean`) | tracing; the texts of errors (parameters) |
| `cmd/tealsarif/main.go` | the scan and the report (`Model/Sarif.lean`), its text (`Model/SarifOut.lean`) | texts of messages about operands are parameters of most theorems (what they are is C120 and C121) |
| `langspec.go`, `langspec.json` | the parser of notes on immediates (`Model/LangSpec.lean`); the rows of the file, without the texts for people (`Model/LangOps.lean`) | decoding the JSON text; the indices returned beside errors |
| `lsp/lsp.go` | the handler of every method, the document store, the cache of analyses, framing of messages; decoding of JSON texts and of messages, `encoding/json` included (`Model/Json.lean`, `Model/Wire.lean`); the structs that are marshalled (`Model/WireOut.lean`), snippets (`Model/Signature.lean`) | how `encoding/json` formats a `float64` (a parameter; it is assumed to keep integers up to 2^53 as they are), tracing; the texts of documentation are parameters of most theorems (what they are is C129); texts of messages about operands are parameters of most theorems (what they are is C120 and C121) |
| `net/textproto` (Go's library) | header reading as documented, as far as frames use it | bodies longer than an `int` |
| `cmd/tealsp`, `cmd/tealdbg`, `flag` (Go's library) | command lines of string flags, what is started, exit status (`Model/Cli.lean`) | the texts of usage messages and panics |
| `symbols.go` | as the records of symbols, references and versions the analyser returns (they only store and return what they are given) | |
| `internal/protocol`, `internal/transactions`, `internal/sarif` | the numbers and names the analyser takes from them (`Model/Consts.lean`); the records of a report and how they are marshalled (`Model/Sarif.lean`, `Model/SarifOut.lean`) | |
| `debug/tokenize`, `debug/lint`, `debug/interpret` | all of them (`Model/Tools.lean`) | what a panic prints |
| `debug/scan` | what is printed about the blocks that are delivered (`Model/Scan.lean`) | the node, the stream of blocks, the clock, the options |
| `debug/translate` | the loop over the members of a package (`Model/Scan.lean`) | `go/ssa`; what is inside a translated function, which is never seen because `Compile` panics for it (C119, C33) |

### Axioms of each theorem of MANIFEST.json

As printed by `#print axioms`.

- **none**: `C33_unique`
- **propext**: `C02_false`, `C05_false`, `C06_false`, `C08_false`, `C10_false`, `C10_symmetric`, `C117_announced`, `C124_covers`, `C125_unique`, `C131_plain`, `C133_again`, `C33_false`, `C33_partial`, `C36_deterministic`, `C36_false`, `C37_one_price`, `C38_breakpoints_false`, `C38_error_stops`, `C42_visits`
- **Quot.sound, propext**: `C101_false`, `C105_exact`, `C105_partial`, `C106_false`, `C108_indented`, `C109_false`, `C109_flags`, `C118_false`, `C118_silent`, `C120_false`, `C122_false`, `C127_unique`, `C128_false`, `C129_constants`, `C129_utf8`, `C130_padding_false`, `C131_unique`, `C13_no_crash`, `C14_base64_exact`, `C14_false`, `C14_hex_exact`, `C15_false`, `C16_print_name`, `C16_unambiguous`, `C17_false`, `C18_false`, `C19_false`, `C21_false`, `C22_false`, `C24_false`, `C26_false`, `C34_false`, `C34_lost`, `C34_twice_false`, `C35`, `C37_false`, `C38_breakpoints_partial`, `C38_false`, `C39_false`, `C40_false`, `C41_switch_unknown`, `C42_false`, `C43_bury_false`, `C43_dig_false`, `C43_false`, `C44_false`, `C45_pointer_false`, `C47_exit`, `C47_refused`, `C48_false`, `C50_false`, `C52`, `C53_exact`, `C53_false`, `C53_partial`, `C53_uri`, `C53_when`, `C55_false`, `C55_false_more`, `C56`, `C57_at_most`, `C57_false`, `C57_partial`, `C58_false`, `C59_false`, `C62_false`, `C62_fork_false`, `C63_false`, `C73_false`, `C74_false`, `C75_false`, `C76_false`, `C77_false`, `C78_false`, `C79_false`, `C80_false`, `C81_false`, `C83_false`, `C84_false`, `C85_false`, `C86_false`, `C87_false`, `C88_false`, `C90_breakpoints`, `C90_look`, `C90_pause`, `C90_unknown`, `C92_false`, `C93_compile`, `C93_false`, `C94_written`, `C95_false`, `C95_method_false`, `C95_names`, `C96_false`, `C96_scratch_false`, `C97_false`, `C97_fork_false`, `edited_unique`
- **Classical.choice, Quot.sound, propext**: `C01_grammar`, `C01_lossless`, `C02_exact`, `C02_positions_partial`, `C03_shapes`, `C04_compositional`, `C05_error_iff`, `C05_exact`, `C05_position_partial`, `C05_single_error`, `C05_tokens_before`, `C06_exact`, `C06_string_end_partial`, `C07_split_lines`, `C08_exact`, `C08_lines_agree_partial`, `C09_encode_decode`, `C100_rejected`, `C100_unambiguous`, `C100_understood`, `C100_utf8`, `C100_written`, `C100_written_same`, `C101`, `C102`, `C103_false`, `C103_partial`, `C103_texts`, `C104`, `C105_false`, `C105_position`, `C105_rename`, `C106_partial`, `C107_false`, `C107_partial`, `C107_served`, `C108`, `C109_end`, `C109_exact`, `C109_exit`, `C109_sarif`, `C109_tealsp_partial`, `C10_columns_partial`, `C10_iff_partial`, `C10_self`, `C10_sound`, `C110_apart`, `C110_available_partial`, `C110_flow`, `C110_lines`, `C110_words`, `C111_labels`, `C111_titles`, `C112`, `C113_exact`, `C113_false`, `C113_signatures_partial`, `C114_inserted`, `C114_unique`, `C115_exact`, `C115_false`, `C115_func_partial`, `C115_named`, `C115_soc_partial`, `C116_alike`, `C116_clean`, `C116_false`, `C116_interpret_partial`, `C116_lint`, `C116_panic`, `C116_program`, `C116_silent`, `C116_status`, `C116_tokens`, `C116_usage`, `C117_false`, `C117_partial`, `C118_exact`, `C118_partial`, `C119_false`, `C119_partial`, `C11_int8`, `C11_int8_print_read`, `C11_int_literal`, `C11_print_read`, `C11_uint8`, `C11_uint8_print_read`, `C11_unambiguous`, `C120_elsewhere`, `C120_partial`, `C120_pragma`, `C121_foreign`, `C121_partial`, `C121_pragma`, `C122_bytes`, `C122_foreign`, `C122_partial`, `C122_pragma`, `C122_texts`, `C122_unique`, `C123_about`, `C123_duplicate`, `C123_listing`, `C123_missing`, `C123_unused`, `C124`, `C125`, `C125_failed`, `C126`, `C126_outside`, `C127`, `C127_told`, `C128_exact`, `C128_partial`, `C129_completion`, `C129_hover`, `C129_signature`, `C12_const_int`, `C12_short_long`, `C12_unambiguous`, `C130_base32`, `C130_false`, `C130_foreign`, `C130_named`, `C130_partial`, `C130_texts`, `C130_unique`, `C130_words`, `C131_line`, `C131_literal`, `C131_names`, `C131_texts`, `C132_create`, `C132_line`, `C132_unlabel`, `C132_value`, `C132_version`, `C133`, `C133_ends`, `C133_lint`, `C133_optimal`, `C133_reported`, `C133_stays`, `C133_tidy`, `C13_decode`, `C13_only_quoted`, `C13_roundtrip`, `C14_decoders`, `C14_source_partial`, `C15_field_version`, `C15_itxn_version`, `C15_txn_version`, `C15_txna_partial`, `C16_by_number`, `C16_txn_by_number`, `C17_exact`, `C17_returns_partial`, `C18_one_per_line_partial`, `C19_line_local`, `C19_replace_line`, `C20_position`, `C20_symbols`, `C21_missing_diag_partial`, `C21_missing_refs`, `C21_missing_rule`, `C21_references`, `C22_args`, `C22_only`, `C22_suggestion_partial`, `C22_version_partial`, `C23_mode_partial`, `C24_pragma_partial`, `C25_positions`, `C26_exact`, `C26_partial`, `C26_quotes`, `C27_duplicate_labels`, `C28_redundant_lines`, `C28_unused_labels`, `C29_exact`, `C29_false`, `C29_unreachable_complete_partial`, `C29_unreachable_sound`, `C30_redundant_branch`, `C30_rule`, `C31_infinite_loop`, `C31_rule`, `C32_only_pragmas`, `C32_pragma_position`, `C34_partial`, `C34_passes_partial`, `C34_reached_partial`, `C36_exact`, `C36_partial`, `C37_exact`, `C37_never_grows`, `C37_partial`, `C37_step_partial`, `C37_total`, `C38_hangs`, `C38_only`, `C38_step_partial`, `C39_fork`, `C39_independent`, `C39_schedule_partial`, `C40_partial`, `C41`, `C41_step`, `C41_switch`, `C41_unique`, `C42_no_pass_partial`, `C42_stops`, `C43_partial`, `C44_error_partial`, `C44_partial`, `C44_results_false`, `C44_results_partial`, `C44_skipped_false`, `C45_descent_partial`, `C45_false`, `C45_path_partial`, `C45_pointer_partial`, `C45_selected`, `C46`, `C46_closed`, `C48_answered_partial`, `C48_at_most_one_partial`, `C48_exact`, `C48_own_ids`, `C49`, `C49_read`, `C49_server`, `C50_exact`, `C50_inside`, `C50_nothing`, `C50_partial`, `C51`, `C51_distinct`, `C51_window`, `C52_increase`, `C54_all_notes`, `C54_note`, `C54_total`, `C55_exact`, `C55_operands_partial`, `C57_exact`, `C58_exact`, `C58_partial`, `C58_window_false`, `C59_exact`, `C59_partial`, `C60`, `C61`, `C62_exact`, `C62_partial`, `C63_exact`, `C63_partial`, `C64`, `C64_threads`, `C65`, `C65_uninitialized`, `C66`, `C67`, `C67_nothing`, `C68`, `C68_nothing`, `C69`, `C70`, `C71_layout`, `C72_exact`, `C72_program`, `C73_exact`, `C73_roundtrip`, `C73_string_partial`, `C74_partial`, `C75_columns_partial`, `C75_partial`, `C76_columns_partial`, `C76_partial`, `C77_exact`, `C77_partial`, `C78_exact`, `C78_partial`, `C79_columns_partial`, `C79_partial`, `C80_partial`, `C81_exact`, `C81_partial`, `C81_quoted`, `C82_before`, `C82_false`, `C82_partial`, `C83_exact`, `C83_partial`, `C84_exact`, `C84_partial`, `C85_opcode_exact`, `C85_opcode_partial`, `C85_operand_exact`, `C85_operand_partial`, `C86_exact`, `C86_partial`, `C87_exact`, `C87_partial`, `C88_exact`, `C88_partial`, `C89_covers`, `C89_exact`, `C89_lines`, `C89_loops`, `C89_unreachable_exact`, `C89_unreachable_partial`, `C91_exact`, `C91_false`, `C91_partial`, `C92_items`, `C92_ranges_partial`, `C92_valid_partial`, `C93_blocks_panic`, `C93_partial`, `C94_false`, `C94_fields_partial`, `C94_notes`, `C94_operands_partial`, `C94_stack_partial`, `C94_types_partial`, `C95_answer`, `C95_budget`, `C95_others`, `C95_partial`, `C96_partial`, `C96_values`, `C97_partial`, `C98_false`, `C98_fork_false`, `C98_partial`, `C99_loop`, `C99_redundant`, `C99_unreachable`, `padded`

## Where the code disagrees with a property

Each is proved with a concrete program or session as witness.

- **C02** (`C02_false`): False of the code when a string literal contains a line break (C02_false); proved for all tokens not preceded by such a literal. C02_exact says which position every token gets: only line breaks between tokens are counted.
- **C05** (`C05_false`): The position part holds only when no string contains a line break: otherwise the lexer goes on counting columns on the line where the string began (C05_false; C05_exact says which position the error has in every text).
- **C06** (`C06_false`): False of the code for literals whose last character is an escaped backslash. C06_exact: every literal of TEAL ends where it should if and only if its body does not end in a backslash. Where the code ends a literal in all cases is said by C01 (`Spelled`).
- **C08** (`C08_false`): False after a string literal containing a line break. C08_exact says where every token is: as many lines further down as there are line breaks in the strings before it.
- **C10** (`C10_false`): False for ranges spanning several lines (C10_false), where columns are compared as if all were on one line: C10_columns_partial is the exact condition.
- **C14** (`C14_false`): False of the two-word spellings when the base64 text begins with `//`: the rest of the line is read as a comment. True, in programs, of all other spellings, and of all texts at the level of the decoders.
- **C15** (`C15_false`): False of the opcodes with an index immediate, which do not look at the version.
- **C29** (`C29_false`): Every line reported is unreachable.  The converse is false of the code behind retsub (C29_false); the lines reported are exactly the instructions behind b, return and err up to the next label that is referred to (C29_exact).
- **C18** (`C18_false`): Proved for texts no line of which has more words than its instruction takes; false of the code otherwise (pop 1); C123 says what the listing of every text is.
- **C19** (`C19_false`): Proved for any change of one line that lexes on its own; false of the code for a line that opens a string and never closes it (C19_false).
- **C21** (`C21_false`): References and missing references proved for all texts; the missing-label diagnostic is on the wrong line behind a line with surplus words (C21_false); C123 says on which.
- **C22** (`C22_false`): All opcodes but args, whose modes are swapped in the code (C22_false; C22_args says what is reported of it).
- **C23** (`C22_false`): All opcodes but args, whose modes are swapped in the code (C22_false; C22_args says what is reported of it).
- **C24** (`C24_false`): Exact acceptance condition proved: any integer literal (also hexadecimal, octal, binary) from 1 to 2^64-1, extra words ignored, recorded modulo 256.
- **C36** (`C36_false`): Run returns from every reachable state of every program without dupn 255, and otherwise exactly if no branch comes to dupn 255 with a value on its stack and budget left (C36_exact); there the code loops forever (C36_false).
- **C37** (`C37_false`): All programs without json_ref, whose charge is computed from the key and with another rounding (C37_false). C37_exact and C37_total say what is charged in all programs.
- **C38** (`C38_false`, `C38_breakpoints_false`): dupn 255 on a non-empty stack hangs (C38_hangs), and nothing else does (C38_only); a negative line crashes SetBreakpoints; everything else returns.
- **C43** (`C43_false`, `C43_bury_false`, `C43_dig_false`): dup2 swaps the pair, bury counts from the bottom, dig wraps on stacks of more than 256 values, dupn 255 hangs; everything else proved. What these instructions do instead is proved as C124.
- **C44** (`C44_false`, `C44_skipped_false`, `C44_results_false`): All instructions of the table except those listed in WrongOperands and WrongResults, for which it is false of the code; what those do instead is proved as C124.
- **C39** (`C39_false`): Fork and single-step independence for all programs; schedule independence as long as the branch itself executes no load, whatever the others do, since branches share the scratch space (C39_false).
- **C40** (`C40_false`): For a branch that executed the call itself; a branch created inside the subroutine has no frames and falls through retsub (C40_false; exactly where it goes is C125).
- **C42** (`C42_false`): Every breakpoint a branch comes to stops Run; a breakpoint on the line where a branch already is when Run is called is passed (C42_false).
- **C45** (`C45_false`, `C45_pointer_false`): Histories without an error, on branches without retsub, on the first branch, and on every branch that, like those it descends from, returns only from subroutines it has called itself (C45_descent_partial); false on branches that return from a subroutine they were created in (C45_false; where these go is C125); a branch created at a trailing label is on a line the program does not have (C45_pointer_false).
- **C33** (`C33_false`): Compile returns exactly for trees without blocks and functions, and then the instructions in order; it panics for every tree with one (C33_false).
- **C34** (`C34_false`, `C34_twice_false`): For programs in which labels that a b goes to are unique and each retsub the program may come to follows a used label; otherwise removing retsub changes the paths (C34_false), and removing a b does (C34_twice_false). C34_lost: if no retsub follows a label, all of them are removed, so the paths change whenever one can be executed.
- **C57** (`C57_false`): Launching a file that cannot be read gets no response (C57_false); everything else proved. C57_exact says what every message the adapter survives is answered with.
- **C58** (`C58_false`, `C58_window_false`): For requests whose arguments are present and in range; otherwise false of the code. C58_exact says exactly which requests crash the debugger.
- **C59** (`C59_false`): The frames are right; the total number of frames is always one (C59_false, C59_exact).
- **C62** (`C62_false`, `C62_fork_false`): The lowest 256 slots (slots wrap modulo 256 in the code, C62_false; C62_exact says which slot is meant in all cases), on the branch that executed the call (a branch created inside has no frame, C62_fork_false).
- **C63** (`C63_false`): When nothing is left between arguments and results; otherwise false of the code (C63_false). C63_exact says what retsub leaves in all cases.
- **C53** (`C53_false`): Everything but the index of a result's location, which is the number of the diagnostic in its file instead of that of the artifact (C53_false, C53_exact).
- **C48** (`C48_false`): Requests on documents that are not open, unknown methods and executed commands get no response at all; a negative line, and a hover over a negative number where a field is expected (`txn -1`), crash the server. C48_exact says of a server that was not asked to shut down exactly which messages stop it and which requests it answers.
- **C50** (`C50_false`): Everywhere but with the cursor between two words that touch (possible only next to string literals), where edits are repeated (C50_false). C50_exact: the answer is, for each word under the cursor, the edits that rename all its occurrences.
- **C17** (`C17_false`): Processing panics for a line with more operands than its opcode can have, followed by something the linter reports (C17_false); it returns whenever no line has surplus operands. C17_exact says exactly when it panics: when the linter, given the text with blank lines behind it, would report one of these blank lines.
- **C55** (`C55_false`): The code reads txn Fee 0 although Fee is no array, cuts the group index of gitxna to 8 bits, does not check versions of array fields and drops text behind a closing parenthesis (C55_false, C55_false_more); everywhere else the operands accepted and the instruction recorded are exactly those of the reference. C55_exact says exactly what is accepted, deviations included (`Taken`).
- **C26** (`C26_false`): False of `replace2`, `pushints`, `gtxnas` with different operands, `method`, byte constants that are empty or whose base64 text begins with `//`, and fields given by numbers without a name in the version. `C26_partial` covers every program made of the other instructions with unquoted labels, lines with errors included. `C26_exact` says that exactly these instructions stop a program from reading back, for all programs whose labels and addresses have no quote between quotes (printing does not escape those again), and `C26_quotes` that no program with such a label or address reads back.
- **C73** (`C73_false`): False of literals that end in an escaped backslash: the lexer takes their closing quote for an escaped one. C73_exact: every other literal is read as its bytes, and these give no instruction and an unclosed string.
- **C74** (`C74_false`): For labels written without quotes in texts whose string literals have no line breaks: after a string with a line break the server counts lines differently from the editor, and the edit replaces other text (C74_false).
- **C75** (`C75_false`): Every hint is right for all ranges; that none is missing is proved for ranges within a line. For others hints go missing, because the columns of the range are compared with those of words on all its lines (C75_false); C75_columns_partial says exactly which.
- **C76** (`C76_false`): No fix is offered elsewhere, for any range; that none is missing is proved for ranges within a line (C76_false for others; C76_columns_partial says exactly which are offered).
- **C77** (`C77_false`): For lines that were read as an instruction, versions that have the field and texts whose strings have no line breaks. The fix is also offered where the version lacks the field; then the number was read and the name is an error (C77_false). C77_exact: the program is kept if the opcode is one for arrays or the version in force has the field, and otherwise exactly this instruction is lost.
- **C78** (`C78_false`): For byte constants without backslashes on lines that were read, in texts whose strings have no line breaks. Backslashes are not escaped, so 0x5c6e becomes the single byte 0a; and the fix is offered for words that are no byte constants, such as the integer 0x41 (C78_false). C78_exact: of bytes that do not end in a backslash the program is kept if and only if there is no backslash among them, and otherwise exactly this instruction changes.
- **C79** (`C79_false`): Removing lines: exact for every range. Labels and versions: nothing else is offered for any range; that none is missing is proved for ranges within a line (C79_false for others: columns are compared across lines, and C79_columns_partial says exactly which are offered). The version of `args` is not compared with the documentation (see C22).
- **C80** (`C80_false`): For texts without a lexical error, whose strings are on one line, and whose carriage returns come before line feeds; same paths if the label jumped to is defined once. Where a string goes on over a line break, the fix removes another line (C80_false).
- **C81** (`C81_false`): For texts without a lexical error, whose strings are on one line, and names without quotes. The edit is behind the last line with a token, or clamped to the end of the text, as editors do. For a quoted operand the new line defines nothing (C81_false), and no line could (C81_quoted); C81_exact: of the labels offered exactly the others are defined.
- **C82** (`C82_false`): For texts whose strings are on one line. With more than one pragma the last one is changed, so that an instruction before it still needs the version and is offered the same fix again (C82_false; C82_before says that nothing changes for any line before the last pragma).
- **C83** (`C83_false`): The place is exact for words without quotes. For a quoted reference the shown range is shorter than what the rename replaces (C83_false). C83_exact: what is shown in every case, and that it is what a rename replaces exactly for definitions and for references as long as their name.
- **C84** (`C84_false`): The edit ends behind the last line with a word or comment, so blanks at the end of the text may stay behind the formatted one. For texts without a lexical error whose strings are on one line; if a string goes on over a line break, words are left behind the formatted text (C84_false). The formatter itself is another package (a parameter). C84_exact says what is replaced and what stays in every text.
- **C85** (`C85_false`): For a cursor on an operand or behind all operands, opcodes of applications, and the version at the end of the text. Opcodes for logic signatures only are offered everywhere, a cursor in the gap before an operand gets what comes after the last one, and lines before a version pragma get the opcodes of the last version (C85_false). What is offered in these cases too is proved exactly (C85_operand_exact, C85_opcode_exact). The version of `args` is not compared with the documentation (see C22).
- **C86** (`C86_false`): Eleven opcodes (`int`, `byte`, `addr`, `method`, `replace` and those on elliptic curves) have no description, fields of elliptic curve groups are not looked up, and a comment that is just the name of an opcode is described (C86_false). What is shown in these cases too is C86_exact. The texts of the descriptions are C129.
- **C87** (`C87_false`): For a cursor on an operand or behind all of them; in the gap before an operand, the one behind the last is active (C87_false; which one is active anywhere is C87_exact). The text of the signature is C113.
- **C88** (`C88_false`): Proved: the decoded tokens are in order, no two overlap unless they are equal, each highlights one word or comment as it should be, and every word that should be highlighted is, operands if no syntax error is reported on their line. The claim that tokens do not overlap fails: `intcblock` and `pushints` record each number twice (`C88_false`), so the answer holds the same token twice; the protocol forbids overlapping tokens. C88_exact: each such number appears exactly twice, and every other word and comment exactly once. The length bound is that of the 32-bit coordinates.
- **C91** (`C91_false`): For tidy texts (`Tidy`): nothing follows a label on its line, versions are single numbers below 256, the operands are those on which the code follows the reference (`Regular`, see C55) and `args` is not used (see C22). Otherwise false: in `x: int 1` the instruction is dropped without any error, and `args` is accepted in applications (C91_false). C91_exact says exactly which texts are accepted (`AcceptedProgram`).
- **C92** (`C92_false`): The items are proved for all texts. That no error means a valid program is proved for tidy texts (see C91), and that the ranges are in the text for texts whose strings do not go on over line breaks. Otherwise false: words behind a string with a line break are reported at columns the line does not have (C92_false).
- **C93** (`C93_false`): Proved for programs without blocks and functions, without Cover, with strings without quotes and backslashes, comments of one line, labels that are words, and instructions that read back (see C26). Otherwise false: printing panics exactly if there is a block or function in the program (so Plus, Minus, the Assert functions, Itxn, MatchLabels and Call cannot be used), Cover makes an uncover instruction, and StringBytes and Comment do not escape (C93_false).
- **C94** (`C94_false`): Proved with the exceptions of C55 for lines that are not regular (field names of a later version and gitxna) and of C44 for instructions the machine gets wrong; for the stack also without the instructions whose operands depend on an immediate (popn, dupn, dig, cover, ...), which the rows do not describe, and those of subroutines (C45). Otherwise false: itxna leaves nothing although its row says that it leaves a value (C94_false).
- **C95** (`C95_false`, `C95_method_false`): Proved for all instructions but those C44 excludes (dup2, bury outside the middle of the stack, dig on a high stack, and the ones the machine ignores) and those that return from subroutines or access frames (C45 describes these on values). False as a whole: pushint shows only its type (C95_false), and a method whose signature reads `b64 ...` is shown as a byte string (C95_method_false).
- **C96** (`C96_false`, `C96_scratch_false`): Proved for runs along a branch that do not execute an instruction for which the machine is known to differ (Spec.Differs: C44, C45), and while no other branch writes to the scratch space. False as a whole: dup2 swaps the copies (C96_false), and the branches share one scratch space, so a branch shows what another one has stored (C96_scratch_false).
- **C97** (`C97_false`, `C97_fork_false`): Proved for every instruction but those for which the machine is known to do something else (Spec.Strange), and for accesses to frames only on the first branch, on others while the debugger's call stack is not empty, or outside of subroutines. False as a whole: the machine expects byte strings for bitlen, which also takes integers (C97_false), and a branch created inside a subroutine does not know that it is in a subroutine (C97_fork_false).
- **C98** (`C98_false`, `C98_fork_false`): Proved for runs without the instructions for which the machine is known to do something else (Spec.Strange) and without jumps by conditional branches inside subroutines. False as a whole: with bitlen of an integer (C98_false), and for runs that return from a subroutine after a conditional jump in it: no session has a branch with that history (C98_fork_false).
- **C101** (`C101_false`): Proved if no member has a name that differs from one the protocol defines there only in the case of letters, and for ids that are strings or integers up to 2^53. False without that: a member Line after line replaces it (C101_false), since encoding/json compares names without regard to case; larger integers pass through a float64.
- **C103** (`C103_false`): Proved for all messages except two kinds of answer: shutdown is answered with [] and a question about nothing (a hover over no operation) with {} where the protocol has null (C103_false). The external formatter is a parameter that is assumed to give UTF-8. Of the texts of documentation and of the messages about operands it is proved (C103_texts), if the message about an address is UTF-8 (strconv.Quote: C131_texts); messages are assumed shorter than 2^63 bytes.
- **C105** (`C105_false`): Proved for lines of ASCII characters. False of others: the server counts bytes. Renaming the label in a line é: makes the editor remove the colon too (C105_false). C105_exact: a position means the same place to both exactly if all characters before it on its line are ASCII.
- **C106** (`C106_false`): Proved for requests in which no other member has a name that differs from one the protocol has only in the case of letters. False without that: the last of threadId and ThreadID wins (C106_false).
- **C107** (`C107_false`): Proved for all messages except the responses to evaluate, setFunctionBreakpoints and setInstructionBreakpoints, which have no body where the protocol demands one (C107_false). The output is assumed shorter than 2^63 bytes. A session may also end early with a panic (C58 says when); then the claim is about what was written until then.
- **C109** (`C109_false`): Proved for tealsp and tealsarif. False of tealdbg: its default for -debug is E:/dbg.txt, so without options it panics unless it can create that file (C109_false; C109_exact says what it does for every command line). The exit status of the language server is stated for inputs of frames of the protocol that do not crash it (C48 says when it does).
- **C113** (`C113_false`): The short form is right for every opcode. The long form never closes the bracket in front of an operand that can be left out (`txn {transaction field index : f} [{uint8 : i}`), so it is claimed for opcodes without such operands only (C113_exact says what every signature looks like); gitxna is shown, and read, with a 64-bit group index (C113_false). The version of args is not compared (see C22).
- **C115** (`C115_false`): The snippets are offered whatever the version, although switch and proto came with version 8 (C115_false), so the claims are about versions from 8 on. C115_exact: what they insert is without an error exactly in these versions. The texts are read by the same process that serves the editor, after a line with the version.
- **C116** (`C116_false`): The interpreter tool does not end for a program with dupn 255, even one without errors (C116_false, cf. C36). The message of a diagnostic about an operand is a parameter here; it is determined in C120.
- **C117** (`C117_false`): Commands are announced and executed but the request is not answered; hover, signature help and prepare rename answer {} over nothing, where the protocol has null (C117_false). Hovers over negative numbers crash (C48).
- **C118** (`C118_false`): The scanner ends if Process panics for a text (C118_false, cf. C17), and only then (C118_exact). The node, the stream and the clock are parameters.
- **C119** (`C119_false`): It never does: if the file has a function or a variable, the translator panics and prints nothing but names of types, because Compile does not know what translateFunction returns (C119_false). Files without them give the empty program.
- **C120** (`C120_false`): Array fields are known to every version and text behind a closing parenthesis is dropped (cf. C55), so reading goes on behind such a word and something further on is blamed instead (C120_false). The texts that strconv, encoding/* and the address check have for what they cannot read are parameters; C122 determines most of them.
- **C122** (`C122_false`): A character that is not ASCII behind a backslash is not named as it is, because its first byte is printed as a character (C122_false; C122_bytes says which). The exceptions of C120 apply. The text of the address check is a parameter; strconv.Quote is C131; the texts of encoding/base32 and encoding/base64 are C130.
- **C128** (`C128_false`): All comments on lines of their own since the last label above are shown, also those with instructions between them and the label (C128_false); what is shown is proved exactly (C128_exact: the comments since the last label, without the mode pragma; the last `proto` below a label of this name). What goes over the wire is part of C103 (SeesCompletion).
- **C130** (`C130_false`, `C130_padding_false`): Up to as many bytes as there are symbols in the last group are ignored behind the padding of base32, and one, three or six symbols at the end stand for nothing, so `b32 MFR` is the empty string (C130_false); C130_base32 says exactly what is accepted. As the message about base32 is that of the decoder that knows no padding, it names the first `=` even if the padding is right (C130_padding_false). Texts without line breaks and without the byte 255, which UTF-8 does not have; C130_named is about all texts. encoding/base32 and encoding/base64 are modelled from Go's published source. The exceptions of C120 apply.
