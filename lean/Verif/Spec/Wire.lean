import Verif.Spec.Json
import Verif.Spec.Numbers
import Verif.Model.Lsp

/-!
# Specification: the messages of the language server protocol as JSON values

Written from the protocol (JSON-RPC 2.0 and LSP 3.17) and the documentation of the commands of the
server.  Members of an object may be in any order, and there may be members that are not mentioned
here.
-/

namespace Teal.WireSpec

open Teal Teal.Spec Teal.JsonSpec

/-- A letter in lower case. -/
def lower (c : UInt8) : UInt8 := if 65 ≤ c ∧ c ≤ 90 then c + 32 else c

/-- `Alike k t`: `t` is the name `k` up to the case of letters.  The Kelvin sign is a capital K and the
long s a capital S to Unicode. -/
inductive Alike : Bytes → Bytes → Prop
  | nil : Alike [] []
  | letter {c b : UInt8} {s t : Bytes} : lower c = lower b → Alike s t → Alike (c :: s) (b :: t)
  | longS {c : UInt8} {s t : Bytes} : lower c = 115 → Alike s t → Alike (c :: s) (0xC5 :: 0xBF :: t)
  | kelvin {c : UInt8} {s t : Bytes} : lower c = 107 → Alike s t → Alike (c :: s) (0xE2 :: 0x84 :: 0xAA :: t)

/-- No member has the name, or one like it. -/
def Lacks (ms : List (Bytes × Json)) (k : Bytes) : Prop := ∀ m ∈ ms, ¬ Alike k m.1

/-- There is a member with the name and a value of the kind, and no other one with a name like it. -/
def Has (ms : List (Bytes × Json)) (k : Bytes) (P : Json → Prop) : Prop :=
  ∃ pre v post, ms = pre ++ (k, v) :: post ∧ Lacks pre k ∧ Lacks post k ∧ P v

/-- An optional member: it may be absent or `null`. -/
def May (ms : List (Bytes × Json)) (k : Bytes) (P : Json → Prop) : Prop :=
  Lacks ms k ∨ Has ms k fun v => v = .null ∨ P v

/-- An object with the members. -/
def IsObj (P : List (Bytes × Json) → Prop) (j : Json) : Prop := ∃ ms, j = .obj ms ∧ P ms

def IsStr (s : Bytes) (j : Json) : Prop := j = .str s

/-- Any string. -/
def Str (j : Json) : Prop := ∃ s, j = .str s

/-- `Numeral i s`: the digits of an integer. -/
def Numeral (i : Int) (s : Bytes) : Prop :=
  (∃ n : Nat, i = n ∧ DecimalOf n s) ∨ ∃ (n : Nat) (t : Bytes), i = -n ∧ DecimalOf n t ∧ s = b!"-" ++ t

/-- An integer of 64 bits. -/
def IsInt (i : Int) (j : Json) : Prop := ∃ s, j = .num s ∧ Numeral i s ∧ -2 ^ 63 ≤ i ∧ i < 2 ^ 63

def Int' (j : Json) : Prop := ∃ i, IsInt i j

/-- An array; the n-th element is of the n-th kind. -/
inductive IsArr : List (Json → Prop) → Json → Prop
  | nil : IsArr [] (.arr [])
  | cons {P : Json → Prop} {Ps : List (Json → Prop)} {v : Json} {vs : List Json} : P v → IsArr Ps (.arr vs) →
      IsArr (P :: Ps) (.arr (v :: vs))

/-- An array of values of one kind. -/
def Arr (P : Json → Prop) (j : Json) : Prop := ∃ vs, j = .arr vs ∧ ∀ v ∈ vs, P v

/-- `Position`. -/
def IsPos (p : Lsp.Pos) : Json → Prop :=
  IsObj fun ms => Has ms b!"line" (IsInt p.line) ∧ Has ms b!"character" (IsInt p.character)

/-- `Range`. -/
def IsRange (r : Lsp.Rg) : Json → Prop := IsObj fun ms => Has ms b!"start" (IsPos r.start) ∧ Has ms b!"end" (IsPos r.stop)

/-- `TextDocumentIdentifier`. -/
def IsDoc (uri : Bytes) : Json → Prop := IsObj fun ms => Has ms b!"uri" (IsStr uri)

/-- `TextDocumentItem`. -/
def IsItem (uri text : Bytes) : Json → Prop :=
  IsObj fun ms => Has ms b!"uri" (IsStr uri) ∧ Has ms b!"version" Int' ∧ Has ms b!"text" (IsStr text)

/-- `VersionedTextDocumentIdentifier`. -/
def IsVersioned (uri : Bytes) : Json → Prop := IsObj fun ms => Has ms b!"uri" (IsStr uri) ∧ Has ms b!"version" Int'

/-- A change of the whole text, `TextDocumentContentChangeEvent`. -/
def IsChange (text : Bytes) : Json → Prop := IsObj fun ms => Has ms b!"text" (IsStr text)

/-- `TextDocumentPositionParams`. -/
def IsDocPos (uri : Bytes) (p : Lsp.Pos) : Json → Prop :=
  IsObj fun ms => Has ms b!"textDocument" (IsDoc uri) ∧ Has ms b!"position" (IsPos p)

/-- The parameters of `inlayHint` and `inlineValue`. -/
def IsDocRange (uri : Bytes) (r : Lsp.Rg) : Json → Prop :=
  IsObj fun ms => Has ms b!"textDocument" (IsDoc uri) ∧ Has ms b!"range" (IsRange r)

/-- Parameters with a document. -/
def IsDocOnly (uri : Bytes) : Json → Prop := IsObj fun ms => Has ms b!"textDocument" (IsDoc uri)

/-- `Diagnostic`, as far as the server looks at it. -/
def Diag : Json → Prop :=
  IsObj fun ms => Has ms b!"range" (fun j => ∃ r, IsRange r j) ∧ May ms b!"severity" Int' ∧ Has ms b!"message" Str

/-- `CodeActionContext`. -/
def Context : Json → Prop :=
  IsObj fun ms => Has ms b!"diagnostics" (Arr Diag) ∧ May ms b!"only" (Arr Str) ∧ May ms b!"triggerKind" Int'

/-- An optional flag: `none` if it is absent or `null`. -/
def Flag (ms : List (Bytes × Json)) (k : Bytes) (b : Option Bool) : Prop :=
  match b with
  | none => May ms k fun _ => False
  | some b => Has ms k fun j => j = .bool b

/-- The options of the server. -/
def IsOptions (o : Lsp.Options) : Json → Prop :=
  IsObj fun ms => Flag ms b!"semanticTokens" o.semanticTokens ∧ Flag ms b!"inlayNamed" o.inlayNamed ∧
    Flag ms b!"inlayDecoded" o.inlayDecoded ∧ Flag ms b!"lensRefs" o.lensRefs

/-- `InitializeParams`, as far as the server looks at them.  The protocol has no member `id` here. -/
def IsInit (o : Option Lsp.Options) : Json → Prop :=
  IsObj fun ms => Lacks ms b!"id" ∧
    May ms b!"clientInfo" (IsObj fun cs => Has cs b!"name" Str ∧ May cs b!"version" Str) ∧
    match o with
    | none => May ms b!"initializationOptions" fun _ => False
    | some o => Has ms b!"initializationOptions" (IsOptions o)

/-- The name and the argument of a command. -/
inductive IsCommand : Lsp.Command → Bytes → Json → Prop
  | versionUpdate {uri : Bytes} {v : Nat} {s : Bytes} {ms : List (Bytes × Json)} : Has ms b!"uri" (IsStr uri) →
      Has ms b!"version" (fun j => j = .num s) → DecimalOf v s → v < 2 ^ 64 →
      IsCommand (.versionUpdate uri v) b!"teal.version.update" (.obj ms)
  | valueReplace {uri value : Bytes} {r : Lsp.Rg} {ms : List (Bytes × Json)} : Has ms b!"uri" (IsStr uri) → Has ms b!"range" (IsRange r) →
      Has ms b!"name" (IsStr value) → IsCommand (.valueReplace uri r value) b!"teal.value.replace" (.obj ms)
  | lineRemove {uri : Bytes} {line : Int} {ms : List (Bytes × Json)} : Has ms b!"uri" (IsStr uri) → Has ms b!"line" (IsInt line) →
      IsCommand (.lineRemove uri line) b!"teal.line.remove" (.obj ms)
  | labelRemove {uri name : Bytes} {ms : List (Bytes × Json)} : Has ms b!"uri" (IsStr uri) → Has ms b!"name" (IsStr name) →
      IsCommand (.labelRemove uri name) b!"teal.label.remove" (.obj ms)
  | labelCreate {uri name : Bytes} {ms : List (Bytes × Json)} : Has ms b!"uri" (IsStr uri) → Has ms b!"name" (IsStr name) →
      IsCommand (.labelCreate uri name) b!"teal.label.create" (.obj ms)

/-- The parameters of `workspace/executeCommand`. -/
def IsExecute (c : Lsp.Command) : Json → Prop :=
  IsObj fun ms => ∃ name, Has ms b!"command" (IsStr name) ∧ Has ms b!"arguments" fun j => ∃ v, j = .arr [v] ∧ IsCommand c name v

/-- A request about a document: its method and its parameters. -/
inductive IsQuery : Lsp.Query → Bytes → (Bytes → Json → Prop) → Prop
  | prepareRename (p : Lsp.Pos) : IsQuery (.prepareRename p) b!"textDocument/prepareRename" fun u => IsDocPos u p
  | rename (p : Lsp.Pos) (name : Bytes) : IsQuery (.rename p name) b!"textDocument/rename" fun u => IsObj fun ms =>
      Has ms b!"textDocument" (IsDoc u) ∧ Has ms b!"position" (IsPos p) ∧ Has ms b!"newName" (IsStr name)
  | inlineValue (r : Lsp.Rg) : IsQuery (.inlineValue r) b!"textDocument/inlineValue" fun u => IsDocRange u r
  | codeLens : IsQuery .codeLens b!"textDocument/codeLens" IsDocOnly
  | inlayHint (r : Lsp.Rg) : IsQuery (.inlayHint r) b!"textDocument/inlayHint" fun u => IsDocRange u r
  | completion (p : Lsp.Pos) : IsQuery (.completion p) b!"textDocument/completion" fun u => IsDocPos u p
  | hover (p : Lsp.Pos) : IsQuery (.hover p) b!"textDocument/hover" fun u => IsDocPos u p
  | definition (p : Lsp.Pos) : IsQuery (.definition p) b!"textDocument/definition" fun u => IsDocPos u p
  | formatting : IsQuery .formatting b!"textDocument/formatting" IsDocOnly
  | signatureHelp (p : Lsp.Pos) : IsQuery (.signatureHelp p) b!"textDocument/signatureHelp" fun u => IsDocPos u p
  | codeAction (r : Lsp.Rg) : IsQuery (.codeAction r) b!"textDocument/codeAction" fun u => IsObj fun ms =>
      Has ms b!"textDocument" (IsDoc u) ∧ Has ms b!"range" (IsRange r) ∧ Has ms b!"context" Context
  | documentHighlight (p : Lsp.Pos) : IsQuery (.documentHighlight p) b!"textDocument/documentHighlight" fun u => IsDocPos u p
  | documentSymbol : IsQuery .documentSymbol b!"textDocument/documentSymbol" IsDocOnly
  | semanticTokens : IsQuery .semanticTokens b!"textDocument/semanticTokens/full" IsDocOnly

/-- The commands of the server. -/
def commands : List Bytes :=
  [b!"teal.version.update", b!"teal.value.replace", b!"teal.line.remove", b!"teal.label.remove", b!"teal.label.create"]

/-- The methods the server knows. -/
def methods : List Bytes :=
  [b!"initialize", b!"initialized", b!"shutdown", b!"exit", b!"$/cancelRequest", b!"workspace/executeCommand"] ++
  ([b!"didOpen", b!"didChange", b!"didSave", b!"didClose", b!"prepareRename", b!"rename", b!"inlineValue", b!"codeLens", b!"inlayHint",
    b!"completion", b!"hover", b!"definition", b!"formatting", b!"signatureHelp", b!"codeAction", b!"diagnostic", b!"documentHighlight",
    b!"documentSymbol", b!"semanticTokens/full"].map (b!"textDocument/" ++ ·))

/-- `Calls c method ms`: a message with the method and the members `ms` asks for `c`. -/
inductive Calls : Lsp.Call → Bytes → List (Bytes × Json) → Prop
  | initialized {ms : List (Bytes × Json)} : Calls .initialized b!"initialized" ms
  | exit {ms : List (Bytes × Json)} : Calls .exit b!"exit" ms
  | didOpen {ms : List (Bytes × Json)} {uri text : Bytes} :
      Has ms b!"params" (IsObj fun ps => Has ps b!"textDocument" (IsItem uri text)) →
      Calls (.didOpen (.given (uri, text))) b!"textDocument/didOpen" ms
  | didChange {ms : List (Bytes × Json)} {uri : Bytes} {texts : List Bytes} :
      Has ms b!"params" (IsObj fun ps => Has ps b!"textDocument" (IsVersioned uri) ∧ Has ps b!"contentChanges" (IsArr (texts.map IsChange))) →
      Calls (.didChange (.given (some uri, texts.map some))) b!"textDocument/didChange" ms
  | didSave {ms : List (Bytes × Json)} {uri : Bytes} : Has ms b!"params" (IsDocOnly uri) →
      Calls (.didSave true) b!"textDocument/didSave" ms
  | shutdown {ms : List (Bytes × Json)} : Calls .shutdown b!"shutdown" ms
  | cancelRequest {ms : List (Bytes × Json)} : Calls .cancelRequest b!"$/cancelRequest" ms
  | didClose {ms : List (Bytes × Json)} {uri : Bytes} : Has ms b!"params" (IsDocOnly uri) →
      Calls (.didClose (.given uri)) b!"textDocument/didClose" ms
  | executeCommand {ms : List (Bytes × Json)} {c : Lsp.Command} : Has ms b!"params" (IsExecute c) →
      Calls (.executeCommand (.given (some [c]))) b!"workspace/executeCommand" ms
  | query {ms : List (Bytes × Json)} {uri : Bytes} {q : Lsp.Query} {method : Bytes} {P : Bytes → Json → Prop} :
      IsQuery q method P → Has ms b!"params" (P uri) → Calls (.query (.given (uri, q))) method ms
  | diagnostic {ms : List (Bytes × Json)} {uri : Bytes} : Has ms b!"params" (IsDocOnly uri) →
      Calls (.diagnostic (.given uri)) b!"textDocument/diagnostic" ms
  | «initialize» {ms : List (Bytes × Json)} {o : Option Lsp.Options} : Has ms b!"params" (IsInit o) →
      Calls (.initialize (.given o)) b!"initialize" ms
  | unknownCommand {ms : List (Bytes × Json)} {name : Bytes} : Has ms b!"params" (IsObj fun ps => Has ps b!"command" (IsStr name)) →
      name ∉ commands → Calls (.unknownCommand name) b!"workspace/executeCommand" ms
  | unknown {ms : List (Bytes × Json)} {method : Bytes} : method ∉ methods → method ≠ [] → Calls (.unknown method) method ms

/-- The id of a request: a string or an integer, which JSON-RPC peers can represent exactly; `null`
for a notification. -/
inductive IsId (ms : List (Bytes × Json)) : Json → Prop
  | none : Lacks ms b!"id" → IsId ms .null
  | str {s : Bytes} : Has ms b!"id" (IsStr s) → IsId ms (.str s)
  | num {i : Int} {s : Bytes} : Has ms b!"id" (fun j => j = .num s) → Numeral i s → -2 ^ 53 ≤ i → i ≤ 2 ^ 53 → IsId ms (.num s)

/-- `Asks j id c`: the JSON value is a request or a notification that asks for `c`. -/
def Asks (j id : Json) (c : Lsp.Call) : Prop :=
  ∃ ms method, j = .obj ms ∧ Has ms b!"jsonrpc" (IsStr b!"2.0") ∧ IsId ms id ∧ Has ms b!"method" (IsStr method) ∧
    Lacks ms b!"result" ∧ Lacks ms b!"error" ∧ Calls c method ms

/-- A JSON value that asks for nothing: a response, or something that is not even an object. -/
def NoCall (j : Json) : Prop := ∀ ms, j = .obj ms → Lacks ms b!"method"

/-- What the body of a frame holds: a message that asks for something, with its id; or else no JSON, or a value that asks for
nothing, such as the client's response to a request of the server. -/
def Carries (s : Bytes) : Option (Json × Lsp.Call) → Prop
  | some (id, c) => ∃ n j, n ≤ 10000 ∧ Spells n s j ∧ Asks j id c
  | none => (¬ ∃ j, SpellsLoosely 10000 s j) ∨ ∃ n j, n ≤ 10000 ∧ Spells n s j ∧ NoCall j

/-- Integers that a double holds exactly are written as they are (`encoding/json` reads the number of
an `interface{}` as a `float64` and writes it in the shortest form that reads back). -/
def Faithful (number : Bytes → Option Bytes) : Prop := ∀ (i : Int) (s : Bytes), Numeral i s → -2 ^ 53 ≤ i → i ≤ 2 ^ 53 → number s = some s

end Teal.WireSpec
