import Verif.Spec.WireOut

/-!
# Specification: what the capabilities of a server promise

Written from the protocol (LSP 3.17): the members of `ServerCapabilities` with the requests they announce, and the
form of the results of these requests.
-/

namespace Teal.WireSpec

open Teal Teal.Spec Teal.JsonSpec

/-- The requests that are announced by members of `ServerCapabilities`, and by members of these. -/
def providers : List (List Bytes × Bytes) :=
  [([b!"completionProvider"], b!"textDocument/completion"),
   ([b!"completionProvider", b!"resolveProvider"], b!"completionItem/resolve"),
   ([b!"hoverProvider"], b!"textDocument/hover"),
   ([b!"signatureHelpProvider"], b!"textDocument/signatureHelp"),
   ([b!"declarationProvider"], b!"textDocument/declaration"),
   ([b!"definitionProvider"], b!"textDocument/definition"),
   ([b!"typeDefinitionProvider"], b!"textDocument/typeDefinition"),
   ([b!"implementationProvider"], b!"textDocument/implementation"),
   ([b!"referencesProvider"], b!"textDocument/references"),
   ([b!"documentHighlightProvider"], b!"textDocument/documentHighlight"),
   ([b!"documentSymbolProvider"], b!"textDocument/documentSymbol"),
   ([b!"codeActionProvider"], b!"textDocument/codeAction"),
   ([b!"codeActionProvider", b!"resolveProvider"], b!"codeAction/resolve"),
   ([b!"codeLensProvider"], b!"textDocument/codeLens"),
   ([b!"codeLensProvider", b!"resolveProvider"], b!"codeLens/resolve"),
   ([b!"documentLinkProvider"], b!"textDocument/documentLink"),
   ([b!"documentLinkProvider", b!"resolveProvider"], b!"documentLink/resolve"),
   ([b!"colorProvider"], b!"textDocument/documentColor"),
   ([b!"colorProvider"], b!"textDocument/colorPresentation"),
   ([b!"documentFormattingProvider"], b!"textDocument/formatting"),
   ([b!"documentRangeFormattingProvider"], b!"textDocument/rangeFormatting"),
   ([b!"documentOnTypeFormattingProvider"], b!"textDocument/onTypeFormatting"),
   ([b!"renameProvider"], b!"textDocument/rename"),
   ([b!"renameProvider", b!"prepareProvider"], b!"textDocument/prepareRename"),
   ([b!"foldingRangeProvider"], b!"textDocument/foldingRange"),
   ([b!"executeCommandProvider"], b!"workspace/executeCommand"),
   ([b!"selectionRangeProvider"], b!"textDocument/selectionRange"),
   ([b!"linkedEditingRangeProvider"], b!"textDocument/linkedEditingRange"),
   ([b!"callHierarchyProvider"], b!"textDocument/prepareCallHierarchy"),
   ([b!"semanticTokensProvider", b!"full"], b!"textDocument/semanticTokens/full"),
   ([b!"semanticTokensProvider", b!"full", b!"delta"], b!"textDocument/semanticTokens/full/delta"),
   ([b!"semanticTokensProvider", b!"range"], b!"textDocument/semanticTokens/range"),
   ([b!"monikerProvider"], b!"textDocument/moniker"),
   ([b!"typeHierarchyProvider"], b!"textDocument/prepareTypeHierarchy"),
   ([b!"inlineValueProvider"], b!"textDocument/inlineValue"),
   ([b!"inlayHintProvider"], b!"textDocument/inlayHint"),
   ([b!"inlayHintProvider", b!"resolveProvider"], b!"inlayHint/resolve"),
   ([b!"diagnosticProvider"], b!"textDocument/diagnostic"),
   ([b!"diagnosticProvider", b!"workspaceDiagnostics"], b!"workspace/diagnostic"),
   ([b!"workspaceSymbolProvider"], b!"workspace/symbol"),
   ([b!"workspaceSymbolProvider", b!"resolveProvider"], b!"workspaceSymbol/resolve")]

/-- The member at the end of the path is `true` or holds options. -/
def Offers : Json → List Bytes → Prop
  | j, [] => j = .bool true ∨ ∃ ms, j = .obj ms
  | j, k :: ks => IsObj (fun ms => Has ms k fun v => Offers v ks) j

/-- The capabilities announce the method. -/
def Provides (caps : Json) (method : Bytes) : Prop := ∃ p, (p, method) ∈ providers ∧ Offers caps p

def SomeRange (j : Json) : Prop := ∃ r, SeesRange r j
def SomeEdit (j : Json) : Prop := ∃ e, SeesEdit e j

/-- The form of the result of a request. -/
inductive ResultOf : Bytes → Json → Prop
  | completion {j : Json} : Arr (fun j => ∃ c, SeesCompletion c j) j → ResultOf b!"textDocument/completion" j
  | hover {j : Json} : IsObj (fun ms => Has ms b!"contents" Markup ∧ Opt ms b!"range" SomeRange) j → ResultOf b!"textDocument/hover" j
  | signatureHelp {j : Json} : (∃ a, SeesSignature a j) → ResultOf b!"textDocument/signatureHelp" j
  | definition {j : Json} : Arr (IsObj fun ms => Has ms b!"uri" Str ∧ Has ms b!"range" SomeRange) j → ResultOf b!"textDocument/definition" j
  | documentHighlight {j : Json} : Arr (IsObj fun ms => Has ms b!"range" SomeRange) j → ResultOf b!"textDocument/documentHighlight" j
  | documentSymbol {j : Json} : Arr (IsObj fun ms => Has ms b!"name" Str ∧ Has ms b!"kind" (fun j => ∃ i : Int, 1 ≤ i ∧ i ≤ 26 ∧ Integer i j) ∧
      Has ms b!"range" SomeRange ∧ Has ms b!"selectionRange" SomeRange) j → ResultOf b!"textDocument/documentSymbol" j
  | codeAction {j : Json} : Arr (IsObj fun ms => Has ms b!"title" Str ∧ Opt ms b!"kind" Str ∧ Has ms b!"command" (IsObj fun cs =>
      Has cs b!"title" Str ∧ Has cs b!"command" (fun n => ∃ c ∈ commands, IsStr c n) ∧ Has cs b!"arguments" (Arr fun _ => True))) j →
      ResultOf b!"textDocument/codeAction" j
  | codeLens {j : Json} : Arr (fun j => ∃ l, SeesLens l j) j → ResultOf b!"textDocument/codeLens" j
  | formatting {j : Json} : Arr SomeEdit j → ResultOf b!"textDocument/formatting" j
  | rename {j : Json} : IsObj (fun ms => Has ms b!"changes" (fun j => ∃ uri es, j = .obj [(uri, es)] ∧ Arr SomeEdit es)) j →
      ResultOf b!"textDocument/rename" j
  | prepareRename {j : Json} : IsObj (fun ms => Has ms b!"range" SomeRange ∧ Has ms b!"placeholder" Str) j →
      ResultOf b!"textDocument/prepareRename" j
  | semanticTokens {j : Json} : IsObj (fun ms => Has ms b!"data" (Arr fun j => ∃ n : Nat, Integer n j)) j →
      ResultOf b!"textDocument/semanticTokens/full" j
  | inlineValue {j : Json} : Arr (IsObj fun ms => Has ms b!"range" SomeRange ∧ Has ms b!"text" Str) j → ResultOf b!"textDocument/inlineValue" j
  | inlayHint {j : Json} : Arr (fun j => ∃ h, SeesHint h j) j → ResultOf b!"textDocument/inlayHint" j
  | diagnostic {j : Json} : IsObj (fun ms => Has ms b!"kind" (IsStr b!"full") ∧ Has ms b!"items" (Arr fun j => ∃ d, SeesDiag d j)) j →
      ResultOf b!"textDocument/diagnostic" j
  /-- nothing to answer, for the requests that allow it -/
  | nothing {method : Bytes} : method ≠ b!"textDocument/diagnostic" → ResultOf method .null

end Teal.WireSpec
