import Verif.Model.Frame
import Verif.Spec.Numbers

/-!
# Frames, as the base protocol of LSP and DAP describes them

A header part and a content part, separated by `\r\n`.  The header part consists of fields, each
a name, `: `, a value and `\r\n`; one of them is `Content-Length`, the decimal number of bytes of
the content.  Names are case-insensitive.
-/

namespace Teal.Frame.Spec

open Teal Teal.Spec

/-- A byte in lower case. -/
def lowerCase (c : UInt8) : UInt8 := if 65 ≤ c ∧ c ≤ 90 then c + 32 else c

/-- A field name: at least one letter, digit or hyphen. -/
def FieldName (k : Bytes) : Prop :=
  k ≠ [] ∧ ∀ c ∈ k, (48 ≤ c ∧ c ≤ 57) ∨ (65 ≤ c ∧ c ≤ 90) ∨ (97 ≤ c ∧ c ≤ 122) ∨ c = 45

/-- A field value: no control characters. -/
def FieldValue (v : Bytes) : Prop := ∀ c ∈ v, 32 ≤ c ∧ c ≠ 127

/-- The name is `Content-Length`. -/
def IsLength (k : Bytes) : Prop := k.map lowerCase = b!"content-length"

/-- A frame: fields in any order, the length among them, once. -/
structure Valid (fields : List (Bytes × Bytes)) (body : Bytes) : Prop where
  names : ∀ f ∈ fields, FieldName f.1
  values : ∀ f ∈ fields, FieldValue f.2
  length : ∃ k v, (k, v) ∈ fields ∧ IsLength k
  lengths : ∀ f ∈ fields, IsLength f.1 → DecimalOf body.length f.2

/-- The bytes of a field. -/
def fieldBytes (f : Bytes × Bytes) : Bytes := f.1 ++ b!": " ++ f.2 ++ b!"\r\n"

/-- The bytes of a frame. -/
def frameBytes (fields : List (Bytes × Bytes)) (body : Bytes) : Bytes :=
  fields.flatMap fieldBytes ++ b!"\r\n" ++ body

end Teal.Frame.Spec
