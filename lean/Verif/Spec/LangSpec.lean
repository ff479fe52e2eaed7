import Verif.Model.Basic

/-!
# Notes on immediates

A note lists the immediates of an opcode.  An immediate is a field in braces, a type and a name; a
length in braces with `{bytes}` behind it; or a count in braces with an array behind it, of fields or of
byte strings with their lengths.
-/

namespace Teal.Imm.Spec

/-- One immediate of a note. -/
inductive Group where
  /-- `{body}` -/
  | one (body : Bytes)
  /-- `{body} {bytes}` -/
  | bytes (body : Bytes)
  /-- `{body} [{elem}, ...]` -/
  | array (body elem : Bytes)
  /-- `{body} [({sub} bytes), ...]` -/
  | arrayBytes (body sub : Bytes)
deriving DecidableEq

/-- The text of an immediate. -/
def Group.text : Group → Bytes
  | .one body => b!"{" ++ body ++ b!"}"
  | .bytes body => b!"{" ++ body ++ b!"} {bytes}"
  | .array body elem => b!"{" ++ body ++ b!"} [{" ++ elem ++ b!"}, ...]"
  | .arrayBytes body sub => b!"{" ++ body ++ b!"} [({" ++ sub ++ b!"} bytes), ...]"

/-- A note: immediates with a space between them. -/
def noteText : List Group → Bytes
  | [] => []
  | [g] => g.text
  | g :: gs => g.text ++ 32 :: noteText gs

/-- The name of a field: what is behind the first space. -/
def fieldName (body : Bytes) : Bytes :=
  match body.dropWhile (· != 32) with
  | [] => body
  | _ :: t => t

/-- How a field is shown: a branch offset is a label to the user. -/
def shown (body : Bytes) : Bytes :=
  if fieldName body = b!"branch offset, big-endian" then b!"{label}" else b!"{" ++ body ++ b!"}"

/-- What is shown for an immediate. -/
def Group.shown : Group → Bytes
  | .one body => Spec.shown body
  | .bytes _ => b!"{bytes}"
  | .array _ elem => b!"[" ++ Spec.shown elem ++ b!", ...]"
  | .arrayBytes _ _ => b!"[{bytes}, ...]"

/-- Is the immediate an array? -/
def Group.isArray : Group → Bool
  | .one _ | .bytes _ => false
  | .array _ _ | .arrayBytes _ _ => true

/-- A body of a field that begins an immediate: no closing brace in it, and not named `bytes`. -/
def BodyOk (body : Bytes) : Prop := 125 ∉ body ∧ fieldName body ≠ b!"bytes"

/-- No closing character inside what it closes. -/
def Group.Ok : Group → Prop
  | .one body => BodyOk body
  | .bytes body => BodyOk body
  | .array body elem => BodyOk body ∧ 125 ∉ elem ∧ 93 ∉ elem
  | .arrayBytes body sub => BodyOk body ∧ 125 ∉ sub ∧ 93 ∉ sub ∧ 41 ∉ sub

end Teal.Imm.Spec
