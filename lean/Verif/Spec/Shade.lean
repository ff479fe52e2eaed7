import Verif.Spec.Complete
import Verif.Spec.Doc
import Verif.Model.Lsp

/-!
# How the words of a program are highlighted

The types of semantic tokens are places in the legend the server announces (lsp.go:2072).
-/

namespace Teal.Lsp.Spec

open Teal Teal.Spec

/-- The legend. -/
def legend : List Bytes :=
  [b!"keyword", b!"string", b!"comment", b!"method", b!"macro", b!"value", b!"number", b!"operator", b!"function"]

/-- The words that say how the next one is to be decoded. -/
def encodings : List Bytes := [b!"base32", b!"b32", b!"base64", b!"b64"]

/-- The opcodes whose operands are labels. -/
def jumpOps : List Bytes := [b!"b", b!"bz", b!"bnz", b!"callsub", b!"switch", b!"match"]

/-- Operand `i` of opcode `w`, which is `x`, is to be highlighted as `name`: the name of an encoding as a
keyword; texts, labels and the names of fields as strings; all others as numbers. -/
inductive OperandShade (w : Bytes) (i : Nat) (x : Bytes) : Bytes → Prop
  | encoding (hw : w ∈ byteConstOps) (hx : x ∈ encodings) : OperandShade w i x b!"keyword"
  | bytes (hw : w ∈ byteConstOps) (hx : x ∉ encodings) : OperandShade w i x b!"string"
  | text (hw : w ∈ [b!"addr", b!"method"] ++ jumpOps) : OperandShade w i x b!"string"
  | field (n : Nat) (h : TableName w i n x) : OperandShade w i x b!"string"
  | number (hw : w ∉ byteConstOps ++ [b!"addr", b!"method"] ++ jumpOps) (h : ∀ n, ¬ TableName w i n x) :
      OperandShade w i x b!"number"

/-- Operand `i` of the instruction in line `k` is the token `t`, and the opcode is `w`. -/
def OperandAt (ts : List Token) (k : Nat) (w : Bytes) (i : Nat) (t : Token) : Prop :=
  ∃ o rest, words ts k = o :: rest ∧ o.v = w ∧ (∃ d ∈ docOps, d.name = w) ∧ rest[i]? = some t

/-- The token `t` is to be highlighted as `name`. -/
inductive Shade (ts : List Token) : Token → Bytes → Prop
  | comment (t : Token) (h : t ∈ ts) (ht : t.t = .comment) : Shade ts t b!"comment"
  | label (k : Nat) (t : Token) (n : Bytes) (h : (words ts k).head? = some t) (ht : t.v = n ++ [chColon]) (hn : n ≠ []) :
      Shade ts t b!"method"
  | pragma (k : Nat) (t : Token) (h : (words ts k).head? = some t) (ht : t.v = b!"#pragma") : Shade ts t b!"macro"
  | version (k : Nat) (p t : Token) (rest : List Token) (h : words ts k = p :: t :: rest) (hp : p.v = b!"#pragma")
      (ht : t.v = b!"version") : Shade ts t b!"macro"
  | versionNumber (k : Nat) (p v t : Token) (rest : List Token) (n : Nat) (h : words ts k = p :: v :: t :: rest)
      (hp : p.v = b!"#pragma") (hv : v.v = b!"version") (ht : IsUint t.v n) : Shade ts t b!"number"
  | opcode (k : Nat) (t : Token) (h : (words ts k).head? = some t) (ht : ∃ d ∈ docOps, d.name = t.v) :
      Shade ts t b!"keyword"
  | operand (k : Nat) (w : Bytes) (i : Nat) (t : Token) (name : Bytes) (h : OperandAt ts k w i t)
      (hs : OperandShade w i t.v name) : Shade ts t name

/-- No word of line `k` is reported as wrong. -/
def ReadsWell (addrOk : Bytes → Bool) (src : Bytes) (k : Nat) : Prop :=
  ∃ maps r, process ⟨addrOk, maps⟩ src = some r ∧ ∀ d ∈ r.diagnostics, d.l = k → ∀ why, d.kind ≠ .parse why

/-- The semantic token that highlights all of `t` as `name`. -/
def Highlights (x : SemanticToken) (t : Token) (name : Bytes) : Prop :=
  x.line = t.l ∧ x.index = t.b ∧ x.length = (t.e : Int) - t.b ∧ 0 ≤ x.type ∧ legend[x.type.toNat]? = some name ∧ x.modifiers = 0

end Teal.Lsp.Spec
