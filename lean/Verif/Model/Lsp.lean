import Verif.Model.Query
import Verif.Model.Diag
import Verif.Model.Message

/-!
# The language server (`lsp/lsp.go`)

JSON is not modelled: a message is what `json.Unmarshal` makes of it.  Replies carry the data the
server puts in them; titles, kinds and documentation texts that are fixed or come from the
documentation tables are left out.
-/

namespace Teal.Lsp

open Teal

/-- `lspPosition` (lsp.go:506-509). -/
structure Pos where
  line : Int
  character : Int
deriving DecidableEq, Repr

/-- `lspRange` (lsp.go:527-530). -/
structure Rg where
  start : Pos
  stop : Pos
deriving DecidableEq, Repr

/-- `lspPosition` as a `teal.Range` (lsp.go:511-525). -/
def Pos.range (p : Pos) : Range := ⟨p.line, p.character, p.line, p.character⟩

/-- `lspRange` as a `teal.Range` (lsp.go:532-546). -/
def Rg.range (r : Rg) : Range := ⟨r.start.line, r.start.character, r.stop.line, r.stop.character⟩

/-- A range on one line, from character to character. -/
def onLine (l b e : Int) : Rg := ⟨⟨l, b⟩, ⟨l, e⟩⟩

/-- `lspTextEdit` (lsp.go:459-462). -/
structure TextEdit where
  range : Rg
  newText : Bytes
deriving DecidableEq, Repr

/-- `lspDiagnostic` (lsp.go:548-552); the kind of the finding stands for the text of the message. -/
structure LspDiag where
  range : Rg
  severity : Nat
  kind : DiagKind
deriving DecidableEq, Repr

/-- `tealConfig` (lsp.go:294-299) with the values `New` gives it (lsp.go:87-92). -/
structure Config where
  semanticTokens : Bool := true
  inlayNamed : Bool := true
  inlayDecoded : Bool := true
  lensRefs : Bool := true
deriving DecidableEq, Repr

/-- `tealInitializationOptions` (lsp.go:287-292): absent members are `none`. -/
structure Options where
  semanticTokens : Option Bool := none
  inlayNamed : Option Bool := none
  inlayDecoded : Option Bool := none
  lensRefs : Option Bool := none
deriving DecidableEq, Repr

/-- `lspDoc` (lsp.go:38-41). -/
structure Doc where
  s : Bytes
  res : Option ProcessResult
deriving DecidableEq, Repr

/-- `lsp` (lsp.go:56-72) without the streams; `docs` is the map as a function. -/
structure State where
  id : Nat := 0
  config : Config := {}
  docs : Bytes → Option Doc := fun _ => none
  shutdown : Bool := false
  exit : Bool := false
  exitCode : Nat := 0

/-- What the server depends on besides the messages: the addresses the Algorand SDK accepts, the
formatter of the `tealfmt` package, and `sort.Sort` on semantic tokens. -/
structure Host where
  addrOk : Bytes → Bool
  format : Bytes → Bytes
  sort : List SemanticToken → List SemanticToken

/-- One entry of a completion list (lsp.go:1407-1517). -/
inductive Completion where
  /-- the snippets `soc` and `func` -/
  | snippet (name : Bytes)
  /-- an opcode -/
  | op (name : Bytes)
  /-- a value of the argument under the cursor -/
  | arg (v : ArgVal)
  /-- the entry with the empty label -/
  | empty
deriving DecidableEq, Repr

/-- The orders in which Go visits maps while a message is handled. -/
structure Choice where
  maps : MapOrder
  ops : List Completion → List Completion
  vals : List ArgVal → List ArgVal
  opsPerm : ∀ l, (ops l).Perm l
  valsPerm : ∀ l, (vals l).Perm l

/-- A command offered or executed (lsp.go:347-371). -/
inductive Command where
  | versionUpdate (uri : Bytes) (version : Nat)
  | valueReplace (uri : Bytes) (range : Rg) (value : Bytes)
  | lineRemove (uri : Bytes) (line : Int)
  | labelRemove (uri : Bytes) (name : Bytes)
  | labelCreate (uri : Bytes) (name : Bytes)
deriving DecidableEq, Repr

/-- `lspCodeAction` (lsp.go:491-498): its title, and the title and the rest of its command (lsp.go:455-459). -/
structure Action where
  title : Bytes
  name : Bytes
  command : Command
deriving DecidableEq, Repr

/-- The requests answered from the analysis of one document. -/
inductive Query where
  | prepareRename (pos : Pos)
  | rename (pos : Pos) (newName : Bytes)
  | inlineValue (range : Rg)
  | codeLens
  | inlayHint (range : Rg)
  | completion (pos : Pos)
  | hover (pos : Pos)
  | definition (pos : Pos)
  | formatting
  | signatureHelp (pos : Pos)
  | codeAction (range : Rg)
  | documentHighlight (pos : Pos)
  | documentSymbol
  | semanticTokens
deriving DecidableEq, Repr

/-- What `read` (lsp.go:715-724) makes of a message: an error, no `params` (or no
`textDocument` where that is a pointer, so that using it panics), or the parameters. -/
inductive Params (α : Type) where
  | bad
  | missing
  | given (a : α)
deriving DecidableEq, Repr

/-- A decoded message by its method. -/
inductive Call where
  | initialized
  | exit
  | didOpen (p : Params (Bytes × Bytes))
  /-- the document and the new texts; `none` stands for a JSON `null` -/
  | didChange (p : Params (Option Bytes × List (Option Bytes)))
  /-- whether the parameters could be read -/
  | didSave (ok : Bool)
  | shutdown
  | cancelRequest
  | didClose (p : Params Bytes)
  /-- the arguments; `none`: they could not be read -/
  | executeCommand (p : Params (Option (List Command)))
  /-- a command that is not known -/
  | unknownCommand (name : Bytes)
  | query (p : Params (Bytes × Query))
  | diagnostic (p : Params Bytes)
  | «initialize» (p : Params (Option Options))
  /-- any other method -/
  | unknown (method : Bytes)
deriving DecidableEq, Repr

/-- A message: `jsonRpcHeader` (lsp.go:112-121) and what else is in it.  `response`: it has a
result, an error, or no method.  The id is the JSON value; absent and `null` are the same. -/
structure Msg where
  response : Bool := false
  id : Bytes := b!"null"
  call : Call
deriving DecidableEq, Repr

/-- What the documentation shown on hovering is about. -/
inductive Shown where
  /-- an opcode -/
  | op (name : Bytes)
  /-- a field, and its number -/
  | field (name : Bytes) (value : Nat)
deriving DecidableEq, Repr

/-- `lspDocumentHighlight`, `lspLocation` and `lspDocumentSymbol` carry a range; code lenses and
inlay hints a position and a text. -/
inductive Result where
  /-- `[]struct{}{}` -/
  | emptyList
  /-- `struct{}{}` -/
  | emptyObject
  | prepareRename (range : Rg) (placeholder : Bytes)
  | workspaceEdit (uri : Bytes) (edits : List TextEdit)
  | inlineValues (vs : List (Rg × Bytes))
  /-- the line of a label and the number in the title -/
  | codeLenses (ls : List (Int × Nat))
  | inlayHints (hs : List (Pos × Bytes))
  | completions (cs : List Completion)
  | hover (doc : Shown)
  | locations (ls : List (Bytes × Rg))
  | textEdits (es : List TextEdit)
  /-- the signature of an opcode, and the active parameter -/
  | signature (op : Bytes) (active : Int)
  | codeActions (cs : List Action)
  | diagnostics (ds : List LspDiag)
  | highlights (hs : List Rg)
  | symbols (ss : List (Bytes × Rg))
  | semanticTokens (data : List Nat)
  /-- the members of the capabilities that depend on the configuration -/
  | capabilities (semanticTokens inlayHint : Bool)
deriving DecidableEq, Repr

/-- What the server writes. -/
inductive Sent where
  /-- a response with a result -/
  | reply (id : Bytes) (r : Result)
  /-- a response with the error `unknown command` -/
  | fail (id : Bytes) (name : Bytes)
  /-- the request `workspace/applyEdit` with its label and the edits of one document -/
  | applyEdit (id label uri : Bytes) (edits : List TextEdit)
deriving DecidableEq, Repr

/-- The edits of one definition and one reference (lsp.go:1191-1222). -/
def symEdit (newName : Bytes) (s : LabelSym) : TextEdit :=
  ⟨onLine s.l s.b (s.b + s.name.length), newName⟩

def refEdit (newName : Bytes) (t : Token) : TextEdit := ⟨onLine t.l t.b t.e, newName⟩

/-- The edits for all definitions and references of a name. -/
def renameEdits (r : ProcessResult) (newName name : Bytes) : List TextEdit :=
  (r.symByName name).map (symEdit newName) ++ (r.symRefByName name).map (refEdit newName)

/-- A semantic token for a range of a line (lsp.go:1918-1996). -/
def semToken (l b e : Nat) (type : Int) : SemanticToken := ⟨l, b, (e : Int) - b, type, 0⟩

/-- The tokens collected for `textDocument/semanticTokens/full` (lsp.go:1915-1999).  `Tokens` of
the result are those of the text. -/
def semTokens (r : ProcessResult) (s : Bytes) : List SemanticToken :=
  r.macros.map (fun t => semToken t.l t.b t.e 4) ++
  (r.ops.filter fun t => decide (t.t = .value)).map (fun t => semToken t.l t.b t.e 0) ++
  r.numbers.map (fun t => semToken t.l t.b t.e 6) ++
  r.strings.map (fun t => semToken t.l t.b t.e 1) ++
  r.keywords.map (fun t => semToken t.l t.b t.e 0) ++
  ((readTokens s).1.filter fun t => decide (t.t = .comment)).map (fun t => semToken t.l t.b t.e 2) ++
  r.symbols.map (fun t => semToken t.l t.b t.e 3) ++
  r.symbolRefs.map (fun t => semToken t.l t.b t.e 1)

/-- `strings.ReplaceAll(v, "\"", "\\\"")`. -/
def escapeQuotes (v : Bytes) : Bytes := v.flatMap fun c => if c = chQuote then [chBackslash, chQuote] else [c]

/-- `RedundantLine.Line` (linter.go:12-35). -/
def _root_.Teal.RedundantLine.line : RedundantLine → Int
  | .label l _ => l
  | .b l => l

/-- `textDocument/codeAction` (lsp.go:1664-1800); `none`: panic. -/
def codeActions (uri : Bytes) (r : ProcessResult) (rg : Rg) : Option (List Action) :=
  (Teal.inlayHints r rg.range).map fun hs =>
    ((r.redundants.filter fun d => decide (rg.start.line ≤ d.line) && decide (rg.stop.line ≥ d.line)).map
      fun d => ⟨d.text, d.text, .lineRemove uri d.line⟩) ++
    ((r.missRefs.filter fun t => Overlaps rg.range t.range).map fun t =>
      ⟨b!"Create label '" ++ t.v ++ b!"'", b!"Create label", .labelCreate uri t.v⟩) ++
    (hs.1.map fun h =>
      ⟨b!"Replace with '" ++ h.name ++ b!"'", b!"Replace with named const", .valueReplace uri (onLine h.t.l h.t.b h.t.e) h.name⟩) ++
    (hs.2.map fun h =>
      ⟨b!"Replace with literal '" ++ h.value ++ b!"'", b!"Replace with literal",
        .valueReplace uri (onLine h.t.l h.t.b h.t.e) (chQuote :: (escapeQuotes h.value ++ [chQuote]))⟩) ++
    ((r.versions.filter fun v => Overlaps rg.range v.range).map fun v =>
      ⟨b!"Update version to " ++ formatUint v.version, b!"Update version", .versionUpdate uri v.version⟩)

/-- The opcodes offered (lsp.go:1471-1508), in the order of the table. -/
def opCompletions (r : ProcessResult) (pre : Bytes) : List Completion :=
  ((opsList.map (·.name)).eraseDups.filter fun n =>
    (((opsGet n).map fun e => decide (e.minVersion .app ≤ r.version)).getD false) && pre.isPrefixOf n).map
      Completion.op

/-- `textDocument/completion` (lsp.go:1371-1519); `none`: panic. -/
def completions (ch : Choice) (r : ProcessResult) (pos : Pos) : Option (List Completion) :=
  if pos.line < 0 then none
  else
    let ops := fun (pre : Bytes) =>
      some ([Completion.snippet b!"soc", .snippet b!"func"] ++ ch.ops (opCompletions r pre))
    match r.lines.getD pos.line.toNat [] with
    | [] => ops []
    | t :: _ =>
      if pos.character ≤ t.e then ops t.v
      else
        match argAt r pos.line pos.character with
        | none => none
        | some (none, _) => some [.empty]
        | some (some a, _) =>
          let cs := (argVals ch.vals r a).map Completion.arg
          some (if cs = [] then [.empty] else cs)

/-- The opcodes whose `FullDoc` (process.go:1464-1548) is empty: neither `opDocByName`
(go_algorand.go:50-241) nor `opDocExtras` (go_algorand.go:243-307) has them. -/
def undocumented : List Bytes :=
  [b!"ec_add", b!"ec_scalar_mul", b!"ec_pairing_check", b!"ec_multi_exp", b!"ec_subgroup_check", b!"ec_map_to", b!"int",
   b!"byte", b!"addr", b!"method", b!"replace"]

/-- The tail of `DocAt` (process.go:2934-3101): the field of a table that a word names or, in decimal,
numbers.  There is no case for the elliptic curve groups.  `none`: panic; the functions
`…SpecByField` (go_algorand.go:633-638 and so on) index the table with a negative number. -/
def fieldDoc (g : FieldGroup) (s : Bytes) : Option (Option Shown) :=
  if g = .ecGroup then some none
  else
    match g.specByName.get s with
    | some spec => some (some (.field (g.str spec.field) spec.field))
    | none =>
      match atoi s with
      | none => some none
      | some v =>
        if v < 0 then none
        else
          match g.specs[v.toNat]? with
          | some spec => some (some (.field (g.str spec.field) spec.field))
          | none => some none

/-- What `DocAt` (process.go:2907-3110) shows for a cursor: the documentation of the opcode or the
field under it.  The texts are not modelled, except for the name and the number of the field. -/
def docAt (r : ProcessResult) (pos : Pos) : Option (Option Shown) :=
  if pos.line ≥ r.lines.length then some none
  else if pos.line < 0 then none
  else
    match r.lines.getD pos.line.toNat [] with
    | [] => some none
    | op :: rest =>
      match opsGet op.v with
      | none => some none
      | some e =>
        if op.b ≤ pos.character ∧ pos.character ≤ op.e then
          some (if op.v ∈ undocumented then none else some (.op op.v))
        else
          match immAt (op :: rest) pos.character with
          | none => some none
          | some (t, i) =>
            let args := e.shape.args
            let i :=
              if args ≠ [] ∧ i ≥ args.length ∧ (args.getLast?.map (·.array)).getD false = true
              then args.length - 1 else i
            match args[i]? with
            | some ⟨.field f, _⟩ => fieldDoc f.table t.v
            | _ => some none

/-- The answers (lsp.go:1134-2006) from the result of processing the text `s`; `none`: panic. -/
def answer (h : Host) (ch : Choice) (cfg : Config) (uri : Bytes) (s : Bytes) (r : ProcessResult) :
    Query → Option Result
  | .prepareRename pos =>
    some <| match r.symbolsWithin pos.range with
    | s :: _ => .prepareRename (onLine s.l s.b (s.b + s.name.length)) s.name
    | [] =>
      match r.symbolRefsWithin pos.range with
      | t :: _ => .prepareRename (onLine t.l t.b (t.b + t.v.length)) t.v
      | [] => .emptyObject
  | .rename pos newName =>
    some <| .workspaceEdit uri
      ((r.symbolsWithin pos.range).flatMap (fun s => renameEdits r newName s.name) ++
       (r.symbolRefsWithin pos.range).flatMap (fun t => renameEdits r newName t.v))
  | .inlineValue range => some <| .inlineValues [(range, b!"Debugger Test")]
  | .codeLens =>
    some <| .codeLenses <| if cfg.lensRefs then
      (r.symbols.filter fun s => refCount r.listing s.name > 0).map
        fun s => ((s.l : Int), refCount r.listing s.name)
      else []
  | .inlayHint range =>
    (Teal.inlayHints r range.range).map fun hs => .inlayHints <|
      (if cfg.inlayNamed then hs.1.map fun x => (⟨x.t.l, x.t.e⟩, x.name) else []) ++
      (if cfg.inlayDecoded then hs.2.map fun x => (⟨x.t.l, x.t.e⟩, x.value) else [])
  | .completion pos => (completions ch r pos).map .completions
  | .hover pos =>
    (docAt r pos).map fun
      | some d => .hover d
      | none => .emptyObject
  | .definition pos =>
    some <| .locations ((r.symbolsForRefWithin pos.range).map
      fun s => (uri, onLine s.l s.b (s.b + s.name.length)))
  | .formatting => some <| .textEdits [⟨⟨⟨0, 0⟩, ⟨r.lines.length, 0⟩⟩, h.format s⟩]
  | .signatureHelp pos =>
    match r.ops.find? fun t => decide ((t.l : Int) = pos.line) with
    | none => some .emptyObject
    | some op =>
      if (opsGet op.v).isSome then
        (argAt r pos.line pos.character).map fun a => .signature op.v a.2
      else some .emptyObject
  | .codeAction range => (codeActions uri r range).map .codeActions
  | .documentHighlight pos =>
    let name := r.symOrRefAt pos.range
    some <| .highlights
      ((r.symByName name).map (fun s => onLine s.l s.b (s.b + s.name.length)) ++
       (r.symRefByName name).map (fun t => onLine t.l t.b t.e))
  | .documentSymbol => some <| .symbols (r.symbols.map fun s => (s.name, onLine s.l s.b s.e))
  | .semanticTokens => some <| .semanticTokens (semEncode h.sort (semTokens r s))

/-- `doDiagnostic` (lsp.go:751-775). -/
def doDiagnostic (r : ProcessResult) : Result :=
  .diagnostics (r.diagnostics.map fun d => ⟨onLine d.l d.b d.e, (severity d.kind).number, d.kind⟩)

/-- Store a document. -/
def State.put (st : State) (uri : Bytes) (d : Option Doc) : State :=
  { st with docs := fun u => if u = uri then d else st.docs u }

/-- `Results` (lsp.go:48-54) of a document of the server; `none`: `Process` panics. -/
def results (h : Host) (ch : Choice) (st : State) (uri : Bytes) (d : Doc) :
    Option (State × ProcessResult) :=
  match d.res with
  | some r => some (st, r)
  | none =>
    match process ⟨h.addrOk, ch.maps⟩ d.s with
    | none => none
    | some r => some (st.put uri (some { d with res := some r }), r)

/-- What handling one message does: the state, what is written, and whether an error was
returned. -/
structure Step where
  st : State
  sent : List Sent := []
  err : Bool := false

/-- The loop over the changes (lsp.go:832-839); the inner `none` is the error return, the outer
one a panic. -/
def applyChanges (st : State) (uri : Option Bytes) : List (Option Bytes) → Option (State × Bool)
  | [] => some (st, false)
  | ch :: chs =>
    match uri with
    | none => none
    | some u =>
      match st.docs u with
      | none => some (st, true)
      | some _ =>
        match ch with
        | none => none
        | some t => applyChanges (st.put u (some ⟨t, none⟩)) uri chs

/-- `request` (lsp.go:726-734) with the edits of one document. -/
def request (st : State) (label uri : Bytes) (edits : List TextEdit) : Step :=
  { st := { st with id := st.id + 1 }, sent := [.applyEdit (formatUint (st.id + 1)) label uri edits] }

/-- `workspace/executeCommand` (lsp.go:870-1132) with one argument; `none`: panic. -/
def execute (h : Host) (ch : Choice) (st : State) (c : Command) : Option Step :=
  match c with
  | .versionUpdate uri version =>
    match st.docs uri with
    | none => some { st := st, err := true }
    | some d =>
      (results h ch st uri d).map fun (st, r) =>
        request st b!"Update version" uri
          [match r.versionToken with
           | some t => ⟨onLine t.l t.b t.e, formatUint version⟩
           | none => ⟨onLine 0 0 0, b!"#pragma version " ++ (formatUint version ++ [chCR, chLF])⟩]
  | .valueReplace uri range value =>
    match st.docs uri with
    | none => some { st := st, err := true }
    | some _ => some (request st b!"Replace with named value" uri [⟨range, value⟩])
  | .lineRemove uri line =>
    match st.docs uri with
    | none => some { st := st, err := true }
    | some _ => some (request st b!"Remove line" uri [⟨⟨⟨line, 0⟩, ⟨line + 1, 0⟩⟩, []⟩])
  | .labelRemove uri name =>
    match st.docs uri with
    | none => some { st := st, err := true }
    | some d =>
      (results h ch st uri d).map fun (st, r) =>
        request st (b!"Remove label: " ++ name) uri ((r.symByName name).map fun s => ⟨onLine s.l s.b s.e, []⟩)
  | .labelCreate uri name =>
    match st.docs uri with
    | none => some { st := st, err := true }
    | some d =>
      (results h ch st uri d).map fun (st, r) =>
        let s := [chCR, chLF] ++ (name ++ [chColon, chCR, chLF])
        request st (b!"Create label: " ++ name) uri [⟨⟨⟨r.lines.length, 0⟩, ⟨r.lines.length, s.length⟩⟩, s⟩]

/-- The configuration after `initialize` (lsp.go:2014-2029). -/
def Options.apply (o : Options) (c : Config) : Config :=
  { semanticTokens := o.semanticTokens.getD c.semanticTokens
    inlayNamed := o.inlayNamed.getD c.inlayNamed
    inlayDecoded := o.inlayDecoded.getD c.inlayDecoded
    lensRefs := o.lensRefs.getD c.lensRefs }

/-- The methods behind the check for `shutdown` (lsp.go:855-2112); `none`: panic. -/
def handleRequest (h : Host) (ch : Choice) (st : State) (id : Bytes) : Call → Option Step
  | .shutdown => some { st := { st with shutdown := true }, sent := [.reply id .emptyList] }
  | .cancelRequest => some { st := st }
  | .didClose .bad => some { st := st, err := true }
  | .didClose .missing => none
  | .didClose (.given uri) => some { st := st.put uri none }
  | .executeCommand .bad => some { st := st, err := true }
  | .executeCommand .missing => none
  | .executeCommand (.given (some [c])) => execute h ch st c
  | .executeCommand (.given _) => some { st := st, err := true }
  | .unknownCommand name => some { st := st, sent := [.fail id name] }
  | .query .bad => some { st := st, err := true }
  | .query .missing => none
  | .query (.given (uri, q)) =>
    match st.docs uri with
    | none => some { st := st, err := true }
    | some d =>
      match results h ch st uri d with
      | none => none
      | some (st, r) =>
        (answer h ch st.config uri d.s r q).map fun a => { st := st, sent := [.reply id a] }
  | .diagnostic .bad => some { st := st, err := true }
  | .diagnostic .missing => none
  | .diagnostic (.given uri) =>
    match st.docs uri with
    | none => some { st := st, sent := [.reply id (.diagnostics [])] }
    | some d =>
      (results h ch st uri d).map fun (st, r) => { st := st, sent := [.reply id (doDiagnostic r)] }
  | .initialize .bad => some { st := st, err := true }
  | .initialize p =>
    let cfg := match p with
      | .given (some o) => o.apply st.config
      | _ => st.config
    some { st := { st with config := cfg },
           sent := [.reply id (.capabilities cfg.semanticTokens (cfg.inlayNamed || cfg.inlayDecoded))] }
  | _ => some { st := st, err := true }

/-- `handle` (lsp.go:786-2116); `none`: panic. -/
def handle (h : Host) (ch : Choice) (st : State) (m : Msg) : Option Step :=
  if m.response then some { st := st }
  else
    match m.call with
    | .initialized => some { st := st }
    | .exit =>
      some { st := { st with exit := true, exitCode := if st.shutdown then st.exitCode else 1 } }
    | .didOpen .bad => some { st := st, err := true }
    | .didOpen .missing => none
    | .didOpen (.given (uri, text)) => some { st := st.put uri (some ⟨text, none⟩) }
    | .didChange .bad => some { st := st, err := true }
    | .didChange .missing => none
    | .didChange (.given (uri, chs)) =>
      (applyChanges st uri chs).map fun (st, err) => { st := st, err := err }
    | .didSave ok => some { st := st, err := !ok }
    | call =>
      if st.shutdown then some { st := st, err := true } else handleRequest h ch st m.id call

/-- What has been written and the state reached, message by message, until the server exits or
panics (the loop of `Run`, lsp.go:2169-2211, on decoded messages). -/
structure Session where
  st : State := {}
  sent : List Sent := []
  crashed : Bool := false

/-- One round of the loop. -/
def Session.next (h : Host) (s : Session) (x : Choice × Msg) : Session :=
  if s.crashed || s.st.exit then s
  else
    match handle h x.1 s.st x.2 with
    | none => { s with crashed := true }
    | some o => { s with st := o.st, sent := s.sent ++ o.sent }

/-- A server that gets the messages. -/
def run (h : Host) (ms : List (Choice × Msg)) : Session := ms.foldl (Session.next h) {}

end Teal.Lsp
