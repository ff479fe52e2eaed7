import Verif.Spec.WireOut
import Verif.Spec.Diagnose
import Verif.Spec.Actions
import Verif.Spec.Message
import Verif.Spec.Operand

/-!
# Specification: what the editor is told in words
-/

namespace Teal.Lsp.Spec

open Teal Teal.Spec Teal.JsonSpec Teal.WireSpec

/-- One of the diagnostics, as it is sent, has the message `m` and begins on line `k`. -/
def Told (t : Wire.Texts) (items : List LspDiag) (k : Nat) (m : Bytes) : Prop :=
  ∃ it ∈ items, it.range.start.line = k ∧ ∃ ms, Wire.diagOut t it = .obj ms ∧ Has ms b!"message" (IsStr m)

/-- Line `k` begins with the word `w`, which is no opcode of the reference, no label and no pragma. -/
def NoSuchOpcode (ts : List Token) (k : Nat) (w : Bytes) : Prop :=
  ∃ t, (words ts k).head? = some t ∧ t.v = w ∧ (∀ d ∈ docOps, d.name ≠ w) ∧ w.getLast? ≠ some chColon ∧ w ≠ b!"#pragma"

/-- Line `k` is a pragma, and its second word is not `version` but `w`. -/
def NoSuchPragma (ts : List Token) (k : Nat) (w : Bytes) : Prop :=
  ∃ t t' rest, words ts k = t :: t' :: rest ∧ t.v = b!"#pragma" ∧ t'.v = w ∧ w ≠ b!"version"

/-- What the title of an action says is what its command does. -/
inductive Titled (l : List Op) (ts : List Token) : Action → Prop
  | label (u n : Bytes) (k : Nat) (h : DefinedAt l n k) (hu : ¬ ∃ i o, Teal.Spec.At l i o ∧ Refers o n) :
      Titled l ts ⟨b!"Remove label '" ++ n ++ b!"'", b!"Remove label '" ++ n ++ b!"'", .lineRemove u k⟩
  | jump (u n : Bytes) (k : Nat) (h : Teal.Spec.At l k (.branch .b n)) (hd : Dispensable l k) :
      Titled l ts ⟨b!"Remove b call", b!"Remove b call", .lineRemove u k⟩
  | create (u n : Bytes) : Titled l ts ⟨b!"Create label '" ++ n ++ b!"'", b!"Create label", .labelCreate u n⟩
  | named (u n : Bytes) (t : Token) (h : IsFieldNumber ts t n) :
      Titled l ts ⟨b!"Replace with '" ++ n ++ b!"'", b!"Replace with named const", .valueReplace u (onLine t.l t.b t.e) n⟩
  | literal (u bs : Bytes) (t : Token) (h : IsHexText ts t bs) :
      Titled l ts ⟨b!"Replace with literal '" ++ bs ++ b!"'", b!"Replace with literal", .valueReplace u (onLine t.l t.b t.e) (quoted bs)⟩
  | version (u : Bytes) (v : Nat) (d : Bytes) (hd : DecimalOf v d) :
      Titled l ts ⟨b!"Update version to " ++ d, b!"Update version", .versionUpdate u v⟩

/-- The diagnostic, as it is sent, is an error at the word `x` of line `k` with the message `m`. -/
def ErrorAt (t : Wire.Texts) (it : LspDiag) (k : Nat) (x : Token) (m : Bytes) : Prop :=
  ∃ ms, Wire.diagOut t it = .obj ms ∧ Has ms b!"range" (SeesRange ⟨⟨k, x.b⟩, ⟨k, x.e⟩⟩) ∧ Has ms b!"severity" (Integer 1) ∧
    Has ms b!"message" (IsStr m)

/-- What the editor is told about the operands of line `k`: whatever is to be said is said at the word it is about,
and nothing else is. -/
structure EditorSays (t : Wire.Texts) (items : List LspDiag) (k : Nat) (line : List Token) (said : Nat → Bytes → Prop) : Prop where
  all : ∀ i m, said i m → ∃ x it, line[i]? = some x ∧ it ∈ items ∧ ErrorAt t it k x m
  only : ∀ m, Told t items k m → (Foreign m ∨ m = b!"missing quotes") → ∃ i, said i m

/-- The messages of the libraries begin differently from those that are not about operands. -/
structure ForeignTexts (e : ErrorTexts) : Prop where
  base32 : ∀ s, Foreign (e.base32 s)
  base64 : ∀ s, Foreign (e.base64 s)
  hex : ∀ s, Foreign (e.hex s)
  string : ∀ s, Foreign (e.string s)
  addr : ∀ s, Foreign (e.addr s)

end Teal.Lsp.Spec
