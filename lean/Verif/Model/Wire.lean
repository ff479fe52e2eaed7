import Verif.Model.Json
import Verif.Model.Lsp

/-!
# Go values from JSON

What `json.Unmarshal` stores in the structures of lsp/lsp.go:105-687 (the part of `encoding/json`
behind the parser, as of Go 1.19), and the message the server makes of it (lsp.go:786-2112).
-/

namespace Teal.Wire

open Teal

/-- Decoding into a variable: its old value, the JSON value, its new value.  `none`: `Unmarshal`
returns an error.  (It goes on with what follows, but nothing looks at the variable then.) -/
abbrev Dec (α : Type) := α → Json → Option α

/-- Into a `string`; `null` changes nothing. -/
def string : Dec Bytes
  | old, .null => some old
  | _, .str s => some s
  | _, _ => none

/-- Into an `int`. -/
def int : Dec Int
  | old, .null => some old
  | _, .num lit => parseIntBase 10 64 lit
  | _, _ => none

/-- Into a `uint64`. -/
def uint64 : Dec Nat
  | old, .null => some old
  | _, .num lit => parseUintBase 10 64 lit
  | _, _ => none

/-- Into a `bool`. -/
def bool : Dec Bool
  | old, .null => some old
  | _, .bool b => some b
  | _, _ => none

/-- Into a pointer: `null` makes it nil; otherwise what it points to is decoded, or a new zero value. -/
def ptr {α : Type} (zero : α) (d : Dec α) : Dec (Option α)
  | _, .null => some none
  | old, j => (d (old.getD zero) j).map some

/-- The elements of an array, into those that are there and into new ones. -/
def elems {α : Type} (zero : α) (d : Dec α) : List α → List Json → Option (List α)
  | _, [] => some []
  | old, j :: js =>
    match d (old.headD zero) j, elems zero d old.tail js with
    | some a, some as => some (a :: as)
    | _, _ => none

/-- Into a slice.  Simplified: elements behind the length of the slice, which only a third member of
the same name could find, are taken to be zero.  A nil slice and an empty one are the same. -/
def slice {α : Type} (zero : α) (d : Dec α) : Dec (List α)
  | _, .null => some []
  | old, .arr js => elems zero d old js
  | _, _ => none

/-- `equalFoldRight` (encoding/json/fold.go): the names are the same up to the case of letters, where
U+212A counts as a K and U+017F as an S.  The names of fields are ASCII; for those without K and S
the package uses functions that agree with this one. -/
def equalFold : Bytes → Bytes → Bool
  | [], t => t.isEmpty
  | _ :: _, [] => false
  | c :: s, b :: t =>
    if b < 128 then
      (c == b || (65 ≤ (c &&& 0xDF) && (c &&& 0xDF) ≤ 90 && (c &&& 0xDF) == (b &&& 0xDF))) && equalFold s t
    else
      let x := decodeRune (b :: t)
      (((c == 115 || c == 83) && x.1 == 0x17F && equalFold s (t.drop 1)) ||
       ((c == 107 || c == 75) && x.1 == 0x212A && equalFold s (t.drop 2)))

/-- A field of a structure: the name in JSON and how it is decoded. -/
abbrev Field (α : Type) := Bytes × Dec α

/-- The field for a name: the one with this name, or else the first one with such a name. -/
def lookup {α : Type} (fs : List (Field α)) (key : Bytes) : Option (Dec α) :=
  match fs.find? (·.1 == key) with
  | some f => some f.2
  | none => (fs.find? fun f => equalFold f.1 key).map (·.2)

/-- The members of an object, one after the other; members without a field are skipped. -/
def members {α : Type} (fs : List (Field α)) : α → List (Bytes × Json) → Option α
  | old, [] => some old
  | old, (k, v) :: ms =>
    match lookup fs k with
    | none => members fs old ms
    | some d =>
      match d old v with
      | none => none
      | some new => members fs new ms

/-- Into a structure (`decodeState.object`). -/
def struct {α : Type} (fs : List (Field α)) : Dec α
  | old, .null => some old
  | old, .obj ms => members fs old ms
  | _, _ => none

/-- A member of a map that is known to have later ones: the last one of a name counts. -/
def upsert (k : Bytes) (v : Json) : List (Bytes × Json) → List (Bytes × Json)
  | [] => [(k, v)]
  | (a, x) :: ms => if k = a then (k, v) :: ms else if k < a then (k, v) :: (a, x) :: ms else (a, x) :: upsert k v ms

mutual

/-- Into an `interface{}`, and what `Marshal` writes of it: numbers become `float64` values, objects
maps, whose keys are written in order.  `number` is how a number is printed that has been read as a
`float64`; `none`: it is out of range. -/
def any (number : Bytes → Option Bytes) : Json → Option Json
  | .null => some .null
  | .bool b => some (.bool b)
  | .num lit => (number lit).map .num
  | .str s => some (.str s)
  | .arr vs => (anyElems number vs).map .arr
  | .obj ms => (anyMembers number ms []).map .obj

/-- The elements of an array. -/
def anyElems (number : Bytes → Option Bytes) : List Json → Option (List Json)
  | [] => some []
  | v :: vs =>
    match any number v, anyElems number vs with
    | some a, some as => some (a :: as)
    | _, _ => none

/-- The members of an object, into a map. -/
def anyMembers (number : Bytes → Option Bytes) : List (Bytes × Json) → List (Bytes × Json) → Option (List (Bytes × Json))
  | [], acc => some acc
  | m :: ms, acc =>
    match any number m.2 with
    | none => none
    | some v => anyMembers number ms (upsert m.1 v acc)

end

/-- Into a field of the type `interface{}`. -/
def iface (number : Bytes → Option Bytes) : Dec Json := fun _ j => any number j

/-- `jsonRpcHeader` (lsp.go:112-121); `null` stands for a nil interface. -/
structure Header where
  jsonrpc : Bytes := []
  id : Json := .null
  method : Bytes := []
  result : Json := .null
  error : Json := .null

def headerFields (number : Bytes → Option Bytes) : List (Field Header) := [
  (b!"jsonrpc", fun h j => (string h.jsonrpc j).map fun v => { h with jsonrpc := v }),
  (b!"id", fun h j => (iface number h.id j).map fun v => { h with id := v }),
  (b!"method", fun h j => (string h.method j).map fun v => { h with method := v }),
  (b!"result", fun h j => (iface number h.result j).map fun v => { h with result := v }),
  (b!"error", fun h j => (iface number h.error j).map fun v => { h with error := v })]

def header (number : Bytes → Option Bytes) : Dec Header := struct (headerFields number)

/-- `read` of an `lspRequest` (lsp.go:135-137, 715-724) with a pointer to the parameters. -/
def params {α : Type} (zero : α) (d : Dec α) (j : Json) : Option (Option α) :=
  struct [(b!"params", ptr zero d)] none j

/-- `lspPosition` (lsp.go:506-509). -/
def positionFields : List (Field Lsp.Pos) := [
  (b!"line", fun p j => (int p.line j).map fun v => { p with line := v }),
  (b!"character", fun p j => (int p.character j).map fun v => { p with character := v })]

def position : Dec Lsp.Pos := struct positionFields

def pos0 : Lsp.Pos := ⟨0, 0⟩

/-- `lspRange` (lsp.go:527-530). -/
def rangeFields : List (Field Lsp.Rg) := [
  (b!"start", fun r j => (position r.start j).map fun v => { r with start := v }),
  (b!"end", fun r j => (position r.stop j).map fun v => { r with stop := v })]

def range : Dec Lsp.Rg := struct rangeFields

def range0 : Lsp.Rg := ⟨pos0, pos0⟩

/-- `lspTextDocumentIdentifier` (lsp.go:583-585) and the other types with just a `uri`: lsp.go:331,
339, 385, 393, 409, 419, 498, 569. -/
def documentFields : List (Field Bytes) := [(b!"uri", string)]

def document : Dec Bytes := struct documentFields

/-- `lspDidOpenTextDocument` (lsp.go:307-311). -/
structure Opened where
  uri : Bytes := []
  version : Int := 0
  text : Bytes := []

def openedFields : List (Field Opened) := [
  (b!"uri", fun d j => (string d.uri j).map fun v => { d with uri := v }),
  (b!"version", fun d j => (int d.version j).map fun v => { d with version := v }),
  (b!"text", fun d j => (string d.text j).map fun v => { d with text := v })]

def opened : Dec Opened := struct openedFields

/-- `lspDidChangeTextDocument` (lsp.go:317-320): the `uri` and the version. -/
def changedFields : List (Field (Bytes × Int)) := [
  (b!"uri", fun d j => (string d.1 j).map fun v => (v, d.2)),
  (b!"version", fun d j => (int d.2 j).map fun v => (d.1, v))]

def changed : Dec (Bytes × Int) := struct changedFields

/-- `lspContentChange` (lsp.go:322-324). -/
def changeFields : List (Field Bytes) := [(b!"text", string)]

def change : Dec Bytes := struct changeFields

/-- `lspDidChangeParams` (lsp.go:326-329): the document and the changes, both by pointers. -/
def didChangeFields : List (Field (Option (Bytes × Int) × List (Option Bytes))) := [
  (b!"textDocument", fun d j => (ptr ([], 0) changed d.1 j).map fun v => (v, d.2)),
  (b!"contentChanges", fun d j => (slice none (ptr [] change) d.2 j).map fun v => (d.1, v))]

def didChange : Dec (Option (Bytes × Int) × List (Option Bytes)) := struct didChangeFields

/-- Parameters with a pointer to a document (lsp.go:335, 343, 389, 502). -/
def documentPtrFields : List (Field (Option Bytes)) := [(b!"textDocument", ptr [] document)]

def documentPtr : Dec (Option Bytes) := struct documentPtrFields

/-- Parameters with a document (lsp.go:587, 596, 653). -/
def documentOnlyFields : List (Field Bytes) := [(b!"textDocument", document)]

def documentOnly : Dec Bytes := struct documentOnlyFields

/-- Parameters with a document and a position (lsp.go:573, 591, 600, 620, 625). -/
def documentPosFields : List (Field (Bytes × Lsp.Pos)) := [
  (b!"textDocument", fun d j => (document d.1 j).map fun v => (v, d.2)),
  (b!"position", fun d j => (position d.2 j).map fun v => (d.1, v))]

def documentPos : Dec (Bytes × Lsp.Pos) := struct documentPosFields

/-- `lspPrepareRenameRequestParams` (lsp.go:423-426): the position has no tag. -/
def prepareRenameFields : List (Field (Bytes × Lsp.Pos)) := [
  (b!"textDocument", fun d j => (document d.1 j).map fun v => (v, d.2)),
  (b!"Position", fun d j => (position d.2 j).map fun v => (d.1, v))]

def prepareRename : Dec (Bytes × Lsp.Pos) := struct prepareRenameFields

/-- `lspRenameRequestParams` (lsp.go:413-417). -/
structure Rename where
  uri : Bytes := []
  pos : Lsp.Pos := pos0
  newName : Bytes := []

def renameFields : List (Field Rename) := [
  (b!"textDocument", fun d j => (document d.uri j).map fun v => { d with uri := v }),
  (b!"Position", fun d j => (position d.pos j).map fun v => { d with pos := v }),
  (b!"newName", fun d j => (string d.newName j).map fun v => { d with newName := v })]

def rename : Dec Rename := struct renameFields

/-- Parameters with a document and a range (lsp.go:630, 643). -/
def documentRangeFields : List (Field (Bytes × Lsp.Rg)) := [
  (b!"textDocument", fun d j => (document d.1 j).map fun v => (v, d.2)),
  (b!"range", fun d j => (range d.2 j).map fun v => (d.1, v))]

def documentRange : Dec (Bytes × Lsp.Rg) := struct documentRangeFields

/-- `lspDiagnostic` (lsp.go:548-552) as it is read. -/
structure ReadDiag where
  range : Lsp.Rg := range0
  severity : Option Int := none
  message : Bytes := []

def diagnosticFields : List (Field ReadDiag) := [
  (b!"range", fun d j => (range d.range j).map fun v => { d with range := v }),
  (b!"severity", fun d j => (ptr 0 int d.severity j).map fun v => { d with severity := v }),
  (b!"message", fun d j => (string d.message j).map fun v => { d with message := v })]

def diagnostic : Dec ReadDiag := struct diagnosticFields

/-- `lspCodeActionContext` (lsp.go:397-401). -/
structure ReadContext where
  diagnostics : List ReadDiag := []
  only : List Bytes := []
  triggerKind : Option Int := none

def contextFields : List (Field ReadContext) := [
  (b!"diagnostics", fun d j => (slice {} diagnostic d.diagnostics j).map fun v => { d with diagnostics := v }),
  (b!"only", fun d j => (slice [] string d.only j).map fun v => { d with only := v }),
  (b!"triggerKind", fun d j => (ptr 0 int d.triggerKind j).map fun v => { d with triggerKind := v })]

def context : Dec ReadContext := struct contextFields

/-- `lspCodeActionRequestParams` (lsp.go:403-407). -/
structure CodeAction where
  uri : Bytes := []
  range : Lsp.Rg := range0
  context : ReadContext := {}

def codeActionFields : List (Field CodeAction) := [
  (b!"textDocument", fun d j => (document d.uri j).map fun v => { d with uri := v }),
  (b!"range", fun d j => (range d.range j).map fun v => { d with range := v }),
  (b!"context", fun d j => (context d.context j).map fun v => { d with context := v })]

def codeAction : Dec CodeAction := struct codeActionFields

/-- `tealInitializationOptions` (lsp.go:287-292). -/
def optionsFields : List (Field Lsp.Options) := [
  (b!"semanticTokens", fun d j => (ptr false bool d.semanticTokens j).map fun v => { d with semanticTokens := v }),
  (b!"inlayNamed", fun d j => (ptr false bool d.inlayNamed j).map fun v => { d with inlayNamed := v }),
  (b!"inlayDecoded", fun d j => (ptr false bool d.inlayDecoded j).map fun v => { d with inlayDecoded := v }),
  (b!"lensRefs", fun d j => (ptr false bool d.lensRefs j).map fun v => { d with lensRefs := v })]

def options : Dec Lsp.Options := struct optionsFields

/-- `lspInitializeClientInfo` (lsp.go:282-285). -/
def clientInfoFields : List (Field (Bytes × Bytes)) := [
  (b!"name", fun d j => (string d.1 j).map fun v => (v, d.2)),
  (b!"version", fun d j => (string d.2 j).map fun v => (d.1, v))]

def clientInfo : Dec (Bytes × Bytes) := struct clientInfoFields

/-- `lspInitializeRequestParams` (lsp.go:301-305): the number of the process is looked for under the
name `id`. -/
structure Init where
  processId : Int := 0
  clientInfo : Option (Bytes × Bytes) := none
  options : Option Lsp.Options := none

def initFields : List (Field Init) := [
  (b!"id", fun d j => (int d.processId j).map fun v => { d with processId := v }),
  (b!"clientInfo", fun d j => (ptr ([], []) clientInfo d.clientInfo j).map fun v => { d with clientInfo := v }),
  (b!"initializationOptions", fun d j => (ptr {} options d.options j).map fun v => { d with options := v })]

def init : Dec Init := struct initFields

/-- `lspWorkspaceExecuteCommandHeader` (lsp.go:373-375). -/
def commandFields : List (Field Bytes) := [(b!"command", string)]

def command : Dec Bytes := struct commandFields

/-- `tealUpdateVersion` (lsp.go:347-350). -/
def updateVersionFields : List (Field (Bytes × Nat)) := [
  (b!"uri", fun d j => (string d.1 j).map fun v => (v, d.2)),
  (b!"version", fun d j => (uint64 d.2 j).map fun v => (d.1, v))]

def updateVersion : Dec (Bytes × Nat) := struct updateVersionFields

/-- `tealReplaceValueCommandArgs` (lsp.go:352-356): the value is called `name`. -/
structure Replace where
  uri : Bytes := []
  range : Lsp.Rg := range0
  value : Bytes := []

def replaceValueFields : List (Field Replace) := [
  (b!"uri", fun d j => (string d.uri j).map fun v => { d with uri := v }),
  (b!"range", fun d j => (range d.range j).map fun v => { d with range := v }),
  (b!"name", fun d j => (string d.value j).map fun v => { d with value := v })]

def replaceValue : Dec Replace := struct replaceValueFields

/-- `tealCreateLabelCommandArgs`, `tealRemoveLabelCommandArgs` (lsp.go:358-366). -/
def labelFields : List (Field (Bytes × Bytes)) := [
  (b!"uri", fun d j => (string d.1 j).map fun v => (v, d.2)),
  (b!"name", fun d j => (string d.2 j).map fun v => (d.1, v))]

def label : Dec (Bytes × Bytes) := struct labelFields

/-- `tealRemoveLineCommandArgs` (lsp.go:368-371). -/
def removeLineFields : List (Field (Bytes × Int)) := [
  (b!"uri", fun d j => (string d.1 j).map fun v => (v, d.2)),
  (b!"line", fun d j => (int d.2 j).map fun v => (d.1, v))]

def removeLine : Dec (Bytes × Int) := struct removeLineFields

/-- `lspWorkspaceExecuteCommandBody` (lsp.go:377-383): the arguments. -/
def arguments {α : Type} (zero : α) (d : Dec α) (j : Json) : Option (List α) :=
  struct [(b!"params", struct [(b!"arguments", slice zero d)])] [] j

/-- What the parameters are to `handle`. -/
def given {α β : Type} (f : α → Option β) : Option (Option α) → Lsp.Params β
  | none => .bad
  | some none => .missing
  | some (some a) =>
    match f a with
    | none => .missing
    | some b => .given b

/-- The arguments of a command (lsp.go:876-1132). -/
def commandArgs (name : Bytes) (j : Json) : Lsp.Call :=
  if name = b!"teal.version.update" then
    .executeCommand (.given ((arguments ([], 0) updateVersion j).map (·.map fun a => .versionUpdate a.1 a.2)))
  else if name = b!"teal.value.replace" then
    .executeCommand (.given ((arguments {} replaceValue j).map (·.map fun a => .valueReplace a.uri a.range a.value)))
  else if name = b!"teal.line.remove" then
    .executeCommand (.given ((arguments ([], 0) removeLine j).map (·.map fun a => .lineRemove a.1 a.2)))
  else if name = b!"teal.label.remove" then
    .executeCommand (.given ((arguments ([], []) label j).map (·.map fun a => .labelRemove a.1 a.2)))
  else if name = b!"teal.label.create" then
    .executeCommand (.given ((arguments ([], []) label j).map (·.map fun a => .labelCreate a.1 a.2)))
  else .unknownCommand name

/-- What `handle` reads for a method (lsp.go:803-2112). -/
def call (method : Bytes) (j : Json) : Lsp.Call :=
  let query {α : Type} (zero : α) (d : Dec α) (f : α → Option (Bytes × Lsp.Query)) : Lsp.Call :=
    .query (given f (params zero d j))
  if method = b!"initialized" then .initialized
  else if method = b!"exit" then .exit
  else if method = b!"textDocument/didOpen" then
    .didOpen (given (fun d => d.map fun t => (t.uri, t.text)) (params none (struct [(b!"textDocument", ptr {} opened)]) j))
  else if method = b!"textDocument/didChange" then
    .didChange (given (fun d => some (d.1.map (·.1), d.2)) (params (none, []) didChange j))
  else if method = b!"textDocument/didSave" then .didSave (params none documentPtr j).isSome
  else if method = b!"shutdown" then .shutdown
  else if method = b!"$/cancelRequest" then .cancelRequest
  else if method = b!"textDocument/didClose" then .didClose (given id (params none documentPtr j))
  else if method = b!"workspace/executeCommand" then
    match params [] command j with
    | none => .executeCommand .bad
    | some none => .executeCommand .missing
    | some (some name) => commandArgs name j
  else if method = b!"textDocument/prepareRename" then
    query ([], pos0) prepareRename fun d => some (d.1, .prepareRename d.2)
  else if method = b!"textDocument/rename" then query {} rename fun d => some (d.uri, .rename d.pos d.newName)
  else if method = b!"textDocument/inlineValue" then query ([], range0) documentRange fun d => some (d.1, .inlineValue d.2)
  else if method = b!"textDocument/codeLens" then query [] documentOnly fun d => some (d, .codeLens)
  else if method = b!"textDocument/inlayHint" then query ([], range0) documentRange fun d => some (d.1, .inlayHint d.2)
  else if method = b!"textDocument/completion" then query ([], pos0) documentPos fun d => some (d.1, .completion d.2)
  else if method = b!"textDocument/hover" then query ([], pos0) documentPos fun d => some (d.1, .hover d.2)
  else if method = b!"textDocument/definition" then query ([], pos0) documentPos fun d => some (d.1, .definition d.2)
  else if method = b!"textDocument/formatting" then query [] documentOnly fun d => some (d, .formatting)
  else if method = b!"textDocument/signatureHelp" then query ([], pos0) documentPos fun d => some (d.1, .signatureHelp d.2)
  else if method = b!"textDocument/codeAction" then query {} codeAction fun d => some (d.uri, .codeAction d.range)
  else if method = b!"textDocument/diagnostic" then .diagnostic (given id (params none documentPtr j))
  else if method = b!"textDocument/documentHighlight" then query ([], pos0) documentPos fun d => some (d.1, .documentHighlight d.2)
  else if method = b!"textDocument/documentSymbol" then query none documentPtr fun d => d.map fun u => (u, .documentSymbol)
  else if method = b!"textDocument/semanticTokens/full" then query [] documentOnly fun d => some (d, .semanticTokens)
  else if method = b!"initialize" then
    .initialize (given (fun d => some d.options) (params {} init j))
  else .unknown method

/-- Not a nil interface. -/
def present : Json → Bool
  | .null => false
  | _ => true

/-- A message from the body of a frame (lsp.go:2191-2197): the header, and by its method the rest;
`none`: `Run` does not hand it on. -/
def message (number : Bytes → Option Bytes) (s : Bytes) : Option Lsp.Msg :=
  match Json.parse s with
  | none => none
  | some j =>
    match header number {} j with
    | none => none
    | some h =>
      some { response := present h.result || present h.error || h.method == []
             id := h.id.text
             call := call h.method j }

end Teal.Wire
