import Verif.Spec.Wire
import Verif.Spec.Message
import Verif.Model.WireOut

/-!
# Specification: what the language server sends, as the protocol has it (JSON-RPC 2.0, LSP 3.17)

Documentation is any text.
-/

namespace Teal.WireSpec

open Teal Teal.Spec Teal.JsonSpec

/-- An integer. -/
def Integer (i : Int) (j : Json) : Prop := ∃ s, j = .num s ∧ Numeral i s

def Yes (b : Bool) (j : Json) : Prop := j = .bool b

/-- `Position`. -/
def SeesPos (p : Lsp.Pos) : Json → Prop :=
  IsObj fun ms => Has ms b!"line" (Integer p.line) ∧ Has ms b!"character" (Integer p.character)

/-- `Range`. -/
def SeesRange (r : Lsp.Rg) : Json → Prop := IsObj fun ms => Has ms b!"start" (SeesPos r.start) ∧ Has ms b!"end" (SeesPos r.stop)

/-- `TextEdit`. -/
def SeesEdit (e : Lsp.TextEdit) : Json → Prop :=
  IsObj fun ms => Has ms b!"range" (SeesRange e.range) ∧ Has ms b!"newText" (IsStr e.newText)

/-- `MarkupContent`. -/
def Markup (j : Json) : Prop :=
  IsObj (fun ms => Has ms b!"kind" (fun k => IsStr b!"plaintext" k ∨ IsStr b!"markdown" k) ∧ Has ms b!"value" Str) j

/-- The label of a `CompletionItem`. -/
def label : Lsp.Completion → Bytes
  | .snippet name => name
  | .op name => name
  | .arg v => v.name
  | .empty => []

/-- The comment of a `CompletionItem` for a label. -/
def comment : Lsp.Completion → Bytes
  | .arg v => v.docs
  | _ => []

/-- A member that is absent or of the kind. -/
def Opt (ms : List (Bytes × Json)) (k : Bytes) (P : Json → Prop) : Prop := Lacks ms k ∨ Has ms k P

/-- What is shown with a value: its number; with a label, the comment and, for a function, the numbers of
arguments and results. -/
def SeesValue (ms : List (Bytes × Json)) (v : ArgVal) : Prop :=
  (∀ n, v.value = some n → ∃ s, DecimalOf n s ∧
    Has ms b!"labelDetails" (IsObj fun ds => Has ds b!"detail" (IsStr (b!" = " ++ s)))) ∧
  (v.value = none → Has ms b!"documentation" (IsObj fun ds => Has ds b!"value" (IsStr v.docs)) ∧
    (∀ a r, v.sig = some (a, r) → ∃ s s', DecimalOf a s ∧ DecimalOf r s' ∧
      Has ms b!"labelDetails" (IsObj fun ds => Has ds b!"detail" (IsStr (b!" in: " ++ s ++ b!", out: " ++ s')))) ∧
    (v.sig = none → Lacks ms b!"labelDetails"))

/-- `CompletionItem`. -/
def SeesCompletion (c : Lsp.Completion) : Json → Prop :=
  IsObj fun ms => Has ms b!"label" (IsStr (label c)) ∧
    Opt ms b!"labelDetails" (IsObj fun ds => Opt ds b!"detail" Str ∧ Opt ds b!"description" Str) ∧
    Opt ms b!"kind" (fun j => ∃ i : Int, 1 ≤ i ∧ i ≤ 25 ∧ Integer i j) ∧ Opt ms b!"detail" Str ∧
    Opt ms b!"documentation" (fun j => Str j ∨ Markup j) ∧ Opt ms b!"insertText" Str ∧
    Opt ms b!"insertTextFormat" (fun j => Integer 1 j ∨ Integer 2 j) ∧ ∀ v, c = .arg v → SeesValue ms v

/-- The name and the argument of a command, as the server will be asked to execute it. -/
def SeesCommand (title : Bytes) (c : Lsp.Command) : Json → Prop :=
  IsObj fun ms => Has ms b!"title" (IsStr title) ∧ ∃ name, Has ms b!"command" (IsStr name) ∧
    Has ms b!"arguments" fun j => ∃ v, j = .arr [v] ∧ IsCommand c name v

/-- The numbers in a command fit in 64 bits, as they do in the server. -/
def Fits : Lsp.Command → Prop
  | .versionUpdate _ v => v < 2 ^ 64
  | .valueReplace _ r _ => ∀ i ∈ [r.start.line, r.start.character, r.stop.line, r.stop.character], -2 ^ 63 ≤ i ∧ i < 2 ^ 63
  | .lineRemove _ l => -2 ^ 63 ≤ l ∧ l < 2 ^ 63
  | .labelRemove _ _ => True
  | .labelCreate _ _ => True

/-- `CodeAction`. -/
def SeesAction (a : Lsp.Action) : Json → Prop :=
  IsObj fun ms => Has ms b!"title" (IsStr a.title) ∧ Has ms b!"kind" (IsStr b!"quickfix") ∧ Has ms b!"command" (SeesCommand a.name a.command) ∧
    Lacks ms b!"edit" ∧ Lacks ms b!"disabled"

/-- `Diagnostic`. -/
def SeesDiag (d : Lsp.LspDiag) : Json → Prop :=
  IsObj fun ms => Has ms b!"range" (SeesRange d.range) ∧ Has ms b!"severity" (Integer d.severity) ∧
    Has ms b!"message" fun j => ∃ m, j = .str m ∧ (OfOperand d.kind ∨ Tells d.kind m)

/-- `CodeLens` of a line, with the number of references in its title. -/
def SeesLens (l : Int × Nat) : Json → Prop :=
  IsObj fun ms => Has ms b!"range" (fun j => ∃ r, SeesRange r j ∧ r.start.line = l.1 ∧ r.stop.line = l.1) ∧
    Has ms b!"command" (IsObj fun cs =>
      Has cs b!"title" (fun j => ∃ d, DecimalOf l.2 d ∧ j = .str (b!"refs: " ++ d)) ∧ Has cs b!"command" Str)

/-- `InlayHint`. -/
def SeesHint (h : Lsp.Pos × Bytes) : Json → Prop :=
  IsObj fun ms => Has ms b!"position" (SeesPos h.1) ∧ Has ms b!"label" (IsStr h.2) ∧
    Has ms b!"kind" (fun j => Integer 1 j ∨ Integer 2 j) ∧ Opt ms b!"paddingLeft" (fun j => ∃ b, Yes b j)

/-- `SignatureHelp` with one signature. -/
def SeesSignature (active : Int) : Json → Prop :=
  IsObj fun ms => Has ms b!"signatures" (IsArr [IsObj fun ss => Has ss b!"label" Str ∧ Opt ss b!"documentation" (fun j => Str j ∨ Markup j) ∧
    Opt ss b!"parameters" (Arr (IsObj fun ps => Has ps b!"label" Str)) ∧ Has ss b!"activeParameter" (Integer active)])

/-- The kinds of semantic tokens, in the order of their numbers. -/
def tokenTypes : List Bytes :=
  [b!"keyword", b!"string", b!"comment", b!"method", b!"macro", b!"value", b!"number", b!"operator", b!"function"]

/-- `ServerCapabilities`: documents are sent as a whole (1); the commands are those of the server. -/
def SeesCapabilities (semanticTokens inlayHint : Bool) : Json → Prop :=
  IsObj fun ms => Has ms b!"textDocumentSync" (Integer 1) ∧
    Has ms b!"diagnosticProvider" (IsObj fun ds => Has ds b!"interFileDependencies" (Yes false) ∧ Has ds b!"workspaceDiagnostics" (Yes false)) ∧
    Has ms b!"completionProvider" (IsObj fun cs => Has cs b!"triggerCharacters" (IsArr [IsStr b!" "])) ∧
    Has ms b!"documentSymbolProvider" (Yes true) ∧ Has ms b!"codeActionProvider" (Yes true) ∧
    Has ms b!"executeCommandProvider" (IsObj fun es => Has es b!"commands" fun j => ∃ cs : List Bytes, cs.Perm commands ∧ IsArr (cs.map IsStr) j) ∧
    Has ms b!"renameProvider" (IsObj fun rs => Has rs b!"prepareProvider" (Yes true)) ∧
    Has ms b!"documentHighlightProvider" (Yes true) ∧
    (if semanticTokens then Has ms b!"semanticTokensProvider" (IsObj fun ss =>
        Has ss b!"legend" (IsObj fun ls => Has ls b!"tokenTypes" (IsArr (tokenTypes.map IsStr)) ∧ Has ls b!"tokenModifiers" (IsArr [])) ∧
        May ss b!"range" (fun _ => False) ∧ Has ss b!"full" (Yes true))
      else Lacks ms b!"semanticTokensProvider") ∧
    Has ms b!"documentFormattingProvider" (Yes true) ∧ Has ms b!"definitionProvider" (Yes true) ∧ Has ms b!"hoverProvider" (Yes true) ∧
    Has ms b!"signatureHelpProvider" (IsObj fun _ => True) ∧ Has ms b!"inlayHintProvider" (Yes inlayHint) ∧
    Has ms b!"inlineValueProvider" (Yes true) ∧ Has ms b!"codeLensProvider" (IsObj fun _ => True)

/-- The result of a response.  If there is nothing to answer it is `null`, as for `shutdown`. -/
def SeesResult : Lsp.Result → Json → Prop
  | .emptyList => fun j => j = .null
  | .emptyObject => fun j => j = .null
  | .prepareRename r p => IsObj fun ms => Has ms b!"range" (SeesRange r) ∧ Has ms b!"placeholder" (IsStr p)
  | .workspaceEdit uri es => IsObj fun ms => Has ms b!"changes" (fun j => ∃ v, j = .obj [(uri, v)] ∧ IsArr (es.map SeesEdit) v) ∧
      Lacks ms b!"documentChanges"
  | .inlineValues vs => IsArr (vs.map fun v => IsObj fun ms => Has ms b!"range" (SeesRange v.1) ∧ Has ms b!"text" (IsStr v.2))
  | .codeLenses ls => fun j => ls = [] ∧ j = .null ∨ IsArr (ls.map SeesLens) j
  | .inlayHints hs => IsArr (hs.map SeesHint)
  | .completions cs => IsArr (cs.map SeesCompletion)
  | .hover _ => IsObj fun ms => Has ms b!"contents" Markup ∧ Opt ms b!"range" (fun j => ∃ r, SeesRange r j)
  | .locations ls => IsArr (ls.map fun l => IsObj fun ms => Has ms b!"uri" (IsStr l.1) ∧ Has ms b!"range" (SeesRange l.2))
  | .textEdits es => IsArr (es.map SeesEdit)
  | .signature _ active => SeesSignature active
  | .codeActions cs => IsArr (cs.map SeesAction)
  | .diagnostics ds => IsObj fun ms => Has ms b!"kind" (IsStr b!"full") ∧ Has ms b!"items" (IsArr (ds.map SeesDiag))
  | .highlights hs => IsArr (hs.map fun h => IsObj fun ms => Has ms b!"range" (SeesRange h) ∧ Has ms b!"kind" (Integer 1))
  | .symbols ss => IsArr (ss.map fun s => IsObj fun ms => Has ms b!"name" (IsStr s.1) ∧ Has ms b!"kind" (Integer 6) ∧
      Has ms b!"range" (SeesRange s.2) ∧ Has ms b!"selectionRange" (SeesRange s.2))
  | .semanticTokens data => IsObj fun ms => Has ms b!"data" (IsArr (data.map fun n : Nat => Integer n))
  | .capabilities st ih => IsObj fun ms => Has ms b!"capabilities" (SeesCapabilities st ih)

/-- A message of the server: a response with the id of the request, or the request to apply edits. -/
def Sees (id : Json) : Lsp.Sent → Json → Prop
  | .reply _ r => IsObj fun ms => Has ms b!"jsonrpc" (IsStr b!"2.0") ∧ Has ms b!"id" (· = id) ∧ Has ms b!"result" (SeesResult r) ∧
      Lacks ms b!"error" ∧ Lacks ms b!"method"
  | .fail _ _ => IsObj fun ms => Has ms b!"jsonrpc" (IsStr b!"2.0") ∧ Has ms b!"id" (· = id) ∧
      Has ms b!"error" (IsObj fun es => Has es b!"code" (Integer 1) ∧ Has es b!"message" Str) ∧ Lacks ms b!"result" ∧ Lacks ms b!"method"
  | .applyEdit n label uri es => IsObj fun ms => Has ms b!"jsonrpc" (IsStr b!"2.0") ∧ Has ms b!"id" (IsStr n) ∧
      Has ms b!"method" (IsStr b!"workspace/applyEdit") ∧
      Has ms b!"params" (IsObj fun ps => Opt ps b!"label" (IsStr label) ∧ Has ps b!"edit" (IsObj fun ws => Lacks ws b!"changes" ∧
        Has ws b!"documentChanges" (IsArr [IsObj fun ds =>
          Has ds b!"textDocument" (IsObj fun ts => Has ts b!"uri" (IsStr uri) ∧ Has ts b!"version" (· = .null)) ∧
          Has ds b!"edits" (IsArr (es.map SeesEdit))]))) ∧
      Lacks ms b!"result" ∧ Lacks ms b!"error"

/-- `Executes j id cmd`: the JSON value is a request to execute the `Command` `cmd` that the server has sent: its name and its
arguments are copied. -/
def Executes (j id cmd : Json) : Prop :=
  ∃ cs name args, cmd = .obj cs ∧ Has cs b!"command" (· = name) ∧ Has cs b!"arguments" (· = args) ∧
  ∃ ms, j = .obj ms ∧ Has ms b!"jsonrpc" (IsStr b!"2.0") ∧ IsId ms id ∧ Has ms b!"method" (IsStr b!"workspace/executeCommand") ∧
    Lacks ms b!"result" ∧ Lacks ms b!"error" ∧
    Has ms b!"params" (IsObj fun ps => Has ps b!"command" (· = name) ∧ Has ps b!"arguments" (· = args))

/-- The strings of a command. -/
def commandStrings : Lsp.Command → List Bytes
  | .versionUpdate uri _ => [uri]
  | .valueReplace uri _ v => [uri, v]
  | .lineRemove uri _ => [uri]
  | .labelRemove uri n => [uri, n]
  | .labelCreate uri n => [uri, n]

/-- The words a diagnostic quotes. -/
def kindStrings : DiagKind → List Bytes
  | .parse (.unknownPragma w) => [w]
  | .parse (.unknownOpcode w) => [w]
  | .lint (.duplicateLabel n) => [n]
  | .lint (.unusedLabel n) => [n]
  | .lint (.missingLabel n) => [n]
  | _ => []

/-- The strings of an answer. -/
def resultStrings : Lsp.Result → List Bytes
  | .prepareRename _ p => [p]
  | .workspaceEdit uri es => uri :: es.map (·.newText)
  | .inlineValues vs => vs.map (·.2)
  | .inlayHints hs => hs.map (·.2)
  | .completions cs => cs.flatMap fun c => [label c, comment c]
  | .locations ls => ls.map (·.1)
  | .textEdits es => es.map (·.newText)
  | .codeActions cs => cs.flatMap fun a => a.title :: a.name :: commandStrings a.command
  | .diagnostics ds => ds.flatMap fun d => kindStrings d.kind
  | .symbols ss => ss.map (·.1)
  | _ => []

/-- The strings of a message of the server. -/
def sentStrings : Lsp.Sent → List Bytes
  | .reply _ r => resultStrings r
  | .fail _ n => [n]
  | .applyEdit n label uri es => n :: label :: uri :: es.map (·.newText)

/-- The answers that are not `[]` or `{}` for nothing. -/
def Something (r : Lsp.Result) : Prop := r ≠ .emptyList ∧ r ≠ .emptyObject

/-- The texts for people are UTF-8. -/
structure CleanTexts (t : Wire.Texts) : Prop where
  hover : ∀ d, Utf8 (t.hover d)
  operand : ∀ d, Utf8 (t.operand d)
  fullDoc : ∀ o, Utf8 (t.fullDoc o)
  opDoc : ∀ o, Utf8 (t.opDoc o)
  argDoc : ∀ v, Utf8 (t.argDoc v)

/-- A formatter that keeps texts UTF-8. -/
def CleanFormat (h : Lsp.Host) : Prop := ∀ s, Utf8 s → Utf8 (h.format s)

end Teal.WireSpec
