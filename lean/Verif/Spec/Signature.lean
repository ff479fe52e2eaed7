import Verif.Spec.Instr
import Verif.Spec.Complete
import Verif.Spec.WireOut

/-!
# Specification: signatures and snippets

How a signature describes operands, what the description allows, and what accepting a completion inserts.
-/

namespace Teal.Spec

open Teal Teal.WireSpec Teal.JsonSpec

/-- The description of an operand: its name, what kind of thing it is, whether it is a list of such, and
whether it can be left out. -/
structure Operand where
  name : Bytes
  kind : Bytes
  list : Bool := false
  optional : Bool := false
deriving DecidableEq, Repr

/-- The kinds of fields. -/
def fieldKinds : List (Bytes × List DocField) :=
  [(b!"global field index", globalFields), (b!"ECDSA Curve", ecdsaFields), (b!"EC group field index", ecGroupFields),
   (b!"base64 encoding", base64Fields), (b!"json_Ref", jsonRefFields), (b!"parameters index", vrfFields),
   (b!"block field", blockFields), (b!"asset holding field index", assetHoldingFields),
   (b!"asset params field index", assetParamsFields), (b!"app params field index", appParamsFields),
   (b!"account params field index", acctParamsFields)]

/-- The words `ws` are a thing of the kind, as an operand of the opcode `w`; `int` takes named integers as
well. -/
inductive OfKind (addrOk : Bytes → Bool) (ver : Nat) (w : Bytes) : Bytes → List Bytes → Prop
  | byte (x : Bytes) (n : Nat) (h : IsByte x n) : OfKind addrOk ver w b!"uint8" [x]
  | small (x : Bytes) (i : Int) (h : IsSmall x i) : OfKind addrOk ver w b!"int8" [x]
  | uint (x : Bytes) (n : Nat) (h : IsUint x n) : OfKind addrOk ver w b!"uint64" [x]
  | const (x : Bytes) (n : Nat) (hw : w = b!"int") (h : IsConst x n) : OfKind addrOk ver w b!"uint64" [x]
  | bytes (ws : List Bytes) (v : Bytes) (h : IsBytes ws v) : OfKind addrOk ver w b!"bytes" ws
  | label (x : Bytes) : OfKind addrOk ver w b!"label name" [x]
  | signature (s : Bytes) : OfKind addrOk ver w b!"signature" [34 :: (s ++ [34])]
  | address (x : Bytes) (h : addrOk x = true) : OfKind addrOk ver w b!"address" [x]
  | txn (x : Bytes) (f : Nat) (h : IsTxnField ver x f) : OfKind addrOk ver w b!"transaction field index" [x]
  | array (x : Bytes) (f : Nat) (h : IsArrayField ver x f) : OfKind addrOk ver w b!"transaction array field index" [x]
  | inner (x : Bytes) (f : Nat) (h : IsInnerField ver x f) : OfKind addrOk ver w b!"internal transaction field index" [x]
  | field (k : Bytes) (names : List DocField) (x : Bytes) (f : Nat) (hk : (k, names) ∈ fieldKinds) (h : IsField names ver x f) :
      OfKind addrOk ver w k [x]

/-- The words are the operands, one after the other; a list takes all the words there are. -/
inductive Complete (addrOk : Bytes → Bool) (ver : Nat) (w : Bytes) : List Operand → List Bytes → Prop
  | none : Complete addrOk ver w [] []
  | one (o : Operand) (os : List Operand) (ws ws' : List Bytes) (h : o.list = false) (hk : OfKind addrOk ver w o.kind ws)
      (hs : Complete addrOk ver w os ws') : Complete addrOk ver w (o :: os) (ws ++ ws')
  | many (o : Operand) (ws : List Bytes) (vs : List Unit) (h : o.list = true)
      (hs : Several (fun g _ => OfKind addrOk ver w o.kind g) ws vs) : Complete addrOk ver w [o] ws

/-- The operands in front of the first that can be left out. -/
def required (os : List Operand) : List Operand := os.takeWhile fun o => !o.optional

/-- The words are operands as described: all of them, or all but those that can be left out. -/
def Described (addrOk : Bytes → Bool) (ver : Nat) (w : Bytes) (os : List Operand) (ws : List Bytes) : Prop :=
  Complete addrOk ver w os ws ∨ Complete addrOk ver w (required os) ws

/-- The operands are those of the instruction `w`: what they allow is what the reference allows.  That only
an array has elements is not for a description to say. -/
structure Describes (w : Bytes) (os : List Operand) : Prop where
  all : ∀ addrOk ver ws o, Instr addrOk ver w ws o → Described addrOk ver w os ws
  only : ∀ addrOk ver ws, Described addrOk ver w os ws →
    (w ∈ [b!"txn", b!"gtxns", b!"gtxn"] → ws.length = os.length → ∀ x ∈ ws, ∀ d ∈ txnFields, d.name = x → d.array = true) →
    ∃ o, Instr addrOk ver w ws o

/-- Texts with a space between them. -/
def spaced : List Bytes → Bytes
  | [] => []
  | s :: ss => s ++ ss.flatMap fun t => 32 :: t

/-- An operand in a signature. -/
def Operand.long (o : Operand) : Bytes := b!"{" ++ o.kind ++ b!" : " ++ o.name ++ (if o.list then b!", ..." else []) ++ b!"}"

/-- An operand in a short signature. -/
def Operand.short (o : Operand) : Bytes := o.name ++ if o.list then b!", ..." else []

/-- The operands one after the other, those that can be left out in brackets. -/
def bracketed (show_ : Operand → Bytes) (os : List Operand) : Bytes :=
  let optional := os.dropWhile fun o => !o.optional
  spaced ((required os).map show_ ++ if optional = [] then [] else [b!"[" ++ spaced (optional.map show_) ++ b!"]"])

/-- `SignatureHelp` of an opcode: the name, the operands, and the name of each operand as a parameter. -/
def ShowsSignature (w : Bytes) (os : List Operand) : Json → Prop :=
  IsObj fun ms => Has ms b!"signatures" (IsArr [IsObj fun ss =>
    Has ss b!"label" (IsStr (w ++ b!" " ++ bracketed Operand.long os)) ∧
    (if os = [] then Lacks ss b!"parameters"
      else Has ss b!"parameters" (IsArr (os.map fun o => IsObj fun ps => Has ps b!"label" (IsStr o.name))))])

/-! ## Snippets -/

/-- Expanding a snippet (LSP 3.17, "Snippet Syntax": text, escapes, tab stops and placeholders whose text is plain);
`fill i` is what is in tab stop `i` in the end. -/
inductive Expands (fill : Nat → Bytes) : Bytes → Bytes → Prop
  | nil : Expands fill [] []
  | char (c : UInt8) (s r : Bytes) (h : c ≠ 36 ∧ c ≠ 92) (hs : Expands fill s r) : Expands fill (c :: s) (c :: r)
  | escape (c : UInt8) (s r : Bytes) (h : c = 36 ∨ c = 92 ∨ c = 125) (hs : Expands fill s r) : Expands fill (92 :: c :: s) (c :: r)
  | stop (i : Nat) (ds s r : Bytes) (hi : DecimalOf i ds) (hd : ∀ c s', s = c :: s' → ¬ (48 ≤ c ∧ c ≤ 57)) (hs : Expands fill s r) :
      Expands fill (36 :: (ds ++ s)) (fill i ++ r)
  | braces (i : Nat) (ds s r : Bytes) (hi : DecimalOf i ds) (hs : Expands fill s r) :
      Expands fill (b!"${" ++ ds ++ 125 :: s) (fill i ++ r)
  | placeholder (i : Nat) (ds d s r : Bytes) (hi : DecimalOf i ds) (hd : ∀ c ∈ d, c ≠ 36 ∧ c ≠ 92 ∧ c ≠ 125) (hs : Expands fill s r) :
      Expands fill (b!"${" ++ ds ++ 58 :: (d ++ 125 :: s)) (fill i ++ r)

/-- What accepting a `CompletionItem` inserts: its label if there is no text to insert, the expansion of
the text if that is a snippet (format 2), and otherwise the text. -/
def Inserts (out : (Nat → Bytes) → Bytes) : Json → Prop :=
  IsObj fun ms => Lacks ms b!"textEdit" ∧
    ((Lacks ms b!"insertText" ∧ ∃ s, Has ms b!"label" (IsStr s) ∧ ∀ fill, out fill = s) ∨
     (∃ s, Has ms b!"insertText" (IsStr s) ∧ Has ms b!"insertTextFormat" (Integer 2) ∧ ∀ fill, Expands fill s (out fill)) ∨
     (∃ s, Has ms b!"insertText" (IsStr s) ∧ Opt ms b!"insertTextFormat" (Integer 1) ∧ ∀ fill, out fill = s))

/-- The details shown with a completion. -/
def Details (detail description : Bytes) : Json → Prop :=
  IsObj fun ms => Has ms b!"labelDetails" (IsObj fun ds => Has ds b!"detail" (IsStr detail) ∧ Has ds b!"description" (IsStr description))

end Teal.Spec
