import Verif.Model.Json
import Verif.Model.Lsp
import Verif.Model.Signature

/-!
# Model: the messages of the language server as JSON

What `json.Marshal` makes of the structs of lsp/lsp.go: members in the order of the fields, under the
names in their tags; with `omitempty` nil pointers, nil interfaces, empty strings, slices and maps are
left out.  Texts for people are parameters.
-/

namespace Teal.Wire

/-- The texts that are not modelled. -/
structure Texts where
  /-- what `DocAt` returns -/
  hover : Lsp.Shown → Bytes
  /-- the message of a diagnostic about an operand -/
  operand : Lsp.LspDiag → Bytes
  /-- `FullDoc` and `Doc` of an opcode -/
  fullDoc : Bytes → Bytes
  opDoc : Bytes → Bytes
  /-- `Docs` of a value of an argument that is not a label -/
  argDoc : ArgVal → Bytes

/-- An integer. -/
def num (i : Int) : Json := .num (formatInt i)

/-- A string with `omitempty`. -/
def nonempty (k s : Bytes) : List (Bytes × Json) := if s = [] then [] else [(k, .str s)]

/-- `lspPosition` (lsp.go:506-509). -/
def posOut (p : Lsp.Pos) : Json := .obj [(b!"line", num p.line), (b!"character", num p.character)]

/-- `lspRange` (lsp.go:527-530). -/
def rangeOut (r : Lsp.Rg) : Json := .obj [(b!"start", posOut r.start), (b!"end", posOut r.stop)]

/-- `lspTextEdit` (lsp.go:461-464). -/
def editOut (e : Lsp.TextEdit) : Json := .obj [(b!"range", rangeOut e.range), (b!"newText", .str e.newText)]

/-- `lspMarkupContent` (lsp.go:620-623). -/
def markup (kind s : Bytes) : Json := .obj [(b!"kind", .str kind), (b!"value", .str s)]

/-- `lspCompletionItemLabelDetails` (lsp.go:150-153). -/
def details (detail description : Bytes) : Json := .obj (nonempty b!"detail" detail ++ nonempty b!"description" description)

/-- A text of the item of an opcode (`Ops.Get`, process.go:1446-1449). -/
def opText (name : Bytes) (f : OpEntry → Bytes) : Bytes :=
  match opsGet name with
  | some e => f e
  | none => []

/-- The details of a value without a number (lsp.go:1412-1416). -/
def sigDetail (v : ArgVal) : Bytes :=
  match v.sig with
  | some p => protoText p
  | none => []

/-- `lspCompletionItem` (lsp.go:155-178) as `textDocument/completion` fills it (lsp.go:1396-1517). -/
def completionOut (t : Texts) : Lsp.Completion → Json
  | .snippet name => .obj ([(b!"label", .str name), (b!"kind", num 15)] ++ nonempty b!"detail" (snippetTexts name).1 ++
      nonempty b!"insertText" (snippetTexts name).2 ++ [(b!"insertTextFormat", num 2)])
  | .op name => .obj ([(b!"label", .str name), (b!"labelDetails", details (chSpace :: opText name OpEntry.argsSig)
        (118 :: opText name fun e => formatUint (e.minVersion .app))),
      (b!"kind", num 25), (b!"documentation", markup b!"markdown" (t.opDoc name))] ++ nonempty b!"insertText" (opText name OpEntry.insert) ++
      if opText name OpEntry.insert = [] then [] else [(b!"insertTextFormat", num 2)])
  | .arg v => .obj ([(b!"label", .str v.name)] ++
      (match v.value with
        | some n => [(b!"labelDetails", details (b!" = " ++ formatUint n) [])]
        | none => if sigDetail v = [] then [] else [(b!"labelDetails", details (chSpace :: sigDetail v) [])]) ++
      [(b!"documentation", markup b!"markdown" (if v.value = none then v.docs else t.argDoc v))])
  | .empty => .obj [(b!"label", .str [])]

/-- The name and the argument of a command (lsp.go:347-371, 1664-1800). -/
def commandOut : Lsp.Command → Bytes × Json
  | .versionUpdate uri v => (b!"teal.version.update", .obj [(b!"uri", .str uri), (b!"version", .num (formatUint v))])
  | .valueReplace uri r v => (b!"teal.value.replace", .obj [(b!"uri", .str uri), (b!"range", rangeOut r), (b!"name", .str v)])
  | .lineRemove uri line => (b!"teal.line.remove", .obj [(b!"uri", .str uri), (b!"line", num line)])
  | .labelRemove uri name => (b!"teal.label.remove", .obj [(b!"uri", .str uri), (b!"name", .str name)])
  | .labelCreate uri name => (b!"teal.label.create", .obj [(b!"uri", .str uri), (b!"name", .str name)])

/-- `lspCodeAction` and `lspCommand` (lsp.go:455-459, 491-498). -/
def actionOut (a : Lsp.Action) : Json :=
  .obj [(b!"title", .str a.title), (b!"kind", .str b!"quickfix"),
    (b!"command", .obj [(b!"title", .str a.name), (b!"command", .str (commandOut a.command).1),
      (b!"arguments", .arr [(commandOut a.command).2])])]

/-- `lspDiagnostic` (lsp.go:548-552). -/
def diagOut (t : Texts) (d : Lsp.LspDiag) : Json :=
  .obj [(b!"range", rangeOut d.range), (b!"severity", num d.severity), (b!"message", .str (d.kind.text (t.operand d)))]

/-- `lspCodeLens` (lsp.go:662-666) as it is filled at lsp.go:1296-1315. -/
def lensOut (l : Int × Nat) : Json :=
  .obj [(b!"range", rangeOut ⟨⟨l.1, 0⟩, ⟨l.1, 0⟩⟩),
    (b!"command", .obj [(b!"title", .str (b!"refs: " ++ formatUint l.2)), (b!"command", .str [])])]

/-- `lspInlayHint` (lsp.go:641-647). -/
def hintOut (h : Lsp.Pos × Bytes) : Json :=
  .obj [(b!"position", posOut h.1), (b!"label", .str h.2), (b!"kind", num 2), (b!"paddingLeft", .bool true)]

/-- The names of the arguments of an opcode (lsp.go:1639-1645). -/
def opArgNames (name : Bytes) : List Bytes :=
  match opsGet name with
  | some e => e.docArgs.map (·.name)
  | none => []

/-- `lspSignatureHelp` (lsp.go:224-244) as it is filled at lsp.go:1605-1660.  `Documentation` is a nil
interface if there is no documentation. -/
def signatureOut (t : Texts) (op : Bytes) (active : Int) : Json :=
  .obj [(b!"signatures", .arr [.obj ([(b!"label", .str (opText op OpEntry.fullSig))] ++
    (if t.fullDoc op = [] then [] else [(b!"documentation", markup b!"markdown" (t.fullDoc op))]) ++
    (if opArgNames op = [] then [] else [(b!"parameters", .arr ((opArgNames op).map fun a => .obj [(b!"label", .str a)]))]) ++
    [(b!"activeParameter", num active)])])]

/-- `lspServerCapabilities` (lsp.go:246-264) as `initialize` fills it (lsp.go:2031-2107). -/
def capabilitiesOut (semanticTokens inlayHint : Bool) : Json :=
  .obj ([(b!"textDocumentSync", num 1),
    (b!"diagnosticProvider", .obj [(b!"interFileDependencies", .bool false), (b!"workspaceDiagnostics", .bool false)]),
    (b!"completionProvider", .obj [(b!"triggerCharacters", .arr [.str b!" "])]),
    (b!"documentSymbolProvider", .bool true), (b!"codeActionProvider", .bool true),
    (b!"executeCommandProvider", .obj [(b!"commands", .arr [.str b!"teal.label.create", .str b!"teal.label.remove",
      .str b!"teal.value.replace", .str b!"teal.line.remove", .str b!"teal.version.update"])]),
    (b!"renameProvider", .obj [(b!"prepareProvider", .bool true)]), (b!"documentHighlightProvider", .bool true)] ++
    (if semanticTokens then [(b!"semanticTokensProvider", .obj [(b!"legend", .obj [(b!"tokenTypes", .arr [.str b!"keyword", .str b!"string",
        .str b!"comment", .str b!"method", .str b!"macro", .str b!"value", .str b!"number", .str b!"operator", .str b!"function"]),
      (b!"tokenModifiers", .arr [])]), (b!"range", .null), (b!"full", .bool true)])] else []) ++
    [(b!"documentFormattingProvider", .bool true), (b!"definitionProvider", .bool true), (b!"hoverProvider", .bool true),
    (b!"signatureHelpProvider", .obj []), (b!"inlayHintProvider", .bool inlayHint), (b!"inlineValueProvider", .bool true),
    (b!"codeLensProvider", .obj [])])

/-- The result of a response.  `cls` at lsp.go:1294 is a nil slice if there are no lenses. -/
def resultOut (t : Texts) : Lsp.Result → Json
  | .emptyList => .arr []
  | .emptyObject => .obj []
  | .prepareRename r p => .obj [(b!"range", rangeOut r), (b!"placeholder", .str p)]
  | .workspaceEdit uri es => .obj [(b!"changes", .obj [(uri, .arr (es.map editOut))])]
  | .inlineValues vs => .arr (vs.map fun v => .obj [(b!"range", rangeOut v.1), (b!"text", .str v.2)])
  | .codeLenses ls => if ls = [] then .null else .arr (ls.map lensOut)
  | .inlayHints hs => .arr (hs.map hintOut)
  | .completions cs => .arr (cs.map (completionOut t))
  | .hover d => .obj [(b!"contents", markup b!"plaintext" (t.hover d)), (b!"range", rangeOut ⟨⟨0, 0⟩, ⟨0, 0⟩⟩)]
  | .locations ls => .arr (ls.map fun l => .obj [(b!"uri", .str l.1), (b!"range", rangeOut l.2)])
  | .textEdits es => .arr (es.map editOut)
  | .signature op active => signatureOut t op active
  | .codeActions cs => .arr (cs.map actionOut)
  | .diagnostics ds => .obj [(b!"kind", .str b!"full"), (b!"items", .arr (ds.map (diagOut t)))]
  | .highlights hs => .arr (hs.map fun h => .obj [(b!"range", rangeOut h), (b!"kind", num 1)])
  | .symbols ss => .arr (ss.map fun s => .obj [(b!"name", .str s.1), (b!"kind", num 6), (b!"range", rangeOut s.2), (b!"selectionRange", rangeOut s.2)])
  | .semanticTokens data => .obj [(b!"data", .arr (data.map fun n => .num (formatUint n)))]
  | .capabilities st ih => .obj [(b!"capabilities", capabilitiesOut st ih)]

/-- `jsonRpcResponse` (lsp.go:123-128), the error of `fail` (lsp.go:1128-1131) and the request
`workspace/applyEdit` (lsp.go:105-110, 726-734, 931-943); `id` is the id of the request, for `Sent` holds
its text. -/
def sentOut (t : Texts) (id : Json) : Lsp.Sent → Json
  | .reply _ r => .obj [(b!"jsonrpc", .str b!"2.0"), (b!"result", resultOut t r), (b!"id", id)]
  | .fail _ name => .obj [(b!"jsonrpc", .str b!"2.0"),
      (b!"error", .obj [(b!"code", num 1), (b!"message", .str (b!"unknown command: " ++ name))]), (b!"id", id)]
  | .applyEdit n label uri es => .obj [(b!"jsonrpc", .str b!"2.0"), (b!"id", .str n), (b!"method", .str b!"workspace/applyEdit"),
      (b!"params", .obj (nonempty b!"label" label ++
        [(b!"edit", .obj [(b!"documentChanges", .arr [.obj [(b!"textDocument", .obj [(b!"uri", .str uri), (b!"version", .null)]),
          (b!"edits", .arr (es.map editOut))]])])]))]

/-- The text of the id in a message. -/
def idText : Lsp.Sent → Bytes
  | .reply id _ => id
  | .fail id _ => id
  | .applyEdit .. => []

/-- `write` (lsp.go:2118-2150): the body of the frame.  The id is what `json.Unmarshal` made of the id of
the request. -/
def sent (t : Texts) (s : Lsp.Sent) : Bytes := (sentOut t ((Json.parse (idText s)).getD .null) s).text

end Teal.Wire
