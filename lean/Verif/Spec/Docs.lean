import Verif.Model.Docs
import Verif.Spec.WireOut

/-!
# Specification: what people are told about opcodes and fields

The descriptions themselves are data: the tables of `Verif.Model.Docs`.
-/

namespace Teal.DocsSpec
open Teal Teal.Docs Teal.Spec Teal.WireSpec

/-- The help for an opcode: its description, and on the next line further remarks, if there are any. -/
inductive Help (w : Bytes) : Bytes → Prop
  | plain {d : Bytes} (hd : (w, d) ∈ opDocByName) (hx : ∀ x, (w, x) ∉ opDocExtras) : Help w d
  | more {d x : Bytes} (hd : (w, d) ∈ opDocByName) (hx : (w, x) ∈ opDocExtras) : Help w (d ++ b!"\n" ++ x)

/-- The remark on number `n` of the fields of a group; it is said which fields of transactions and of the globals are for
applications only, in a sentence of its own. -/
inductive Remark (g : FieldGroup) (n : Nat) : Bytes → Prop
  | none (h : (groupDocs g) = []) : Remark g n []
  | plain {d : Bytes} (h : (groupDocs g)[n]? = some (false, d)) : Remark g n d
  | sentence {d : Bytes} (h : (groupDocs g)[n]? = some (true, d)) (hd : ∃ p, d = p ++ b!".") :
      Remark g n (d ++ b!" Application mode only" ++ if g = .global then b!"." else [])
  | part {d : Bytes} (h : (groupDocs g)[n]? = some (true, d)) (hd : d ≠ []) (hp : ∀ p, d ≠ p ++ b!".") :
      Remark g n (d ++ b!". Application mode only" ++ if g = .global then b!"." else [])

/-- `MarkupContent` with a text. -/
def Says (kind text : Bytes) : Json → Prop :=
  IsObj fun ms => Has ms b!"kind" (IsStr kind) ∧ Has ms b!"value" (IsStr text)

/-- A `Hover` with a text. -/
def HoverSays (text : Bytes) : Json → Prop := IsObj fun ms => Has ms b!"contents" (Says b!"plaintext" text)

end Teal.DocsSpec
