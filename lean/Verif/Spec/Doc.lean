import Verif.Spec.Lexer
import Verif.Model.Range

/-! # Specifications for editor documents, ranges and semantic tokens -/

namespace Teal.Spec

open Teal

/-- The text made of the given lines, with the given line breaks between them. -/
def interleave : List Bytes → List Bytes → Bytes
  | [], _ => []
  | [l], _ => l
  | l :: ls, [] => l ++ interleave ls []
  | l :: ls, b :: bs => l ++ b ++ interleave ls bs

/-- A line and a character in it. -/
abbrev Pos := Int × Int

/-- Document order of positions. -/
def Pos.before (p q : Pos) : Prop := p.1 < q.1 ∨ p.1 = q.1 ∧ p.2 ≤ q.2

/-- A position lies in a range (both ends included). -/
def InRange (p : Pos) (r : Range) : Prop :=
  Pos.before (r.startLine, r.startCharacter) p ∧ Pos.before p (r.endLine, r.endCharacter)

/-- The range does not end before it starts. -/
def WellFormed (r : Range) : Prop :=
  Pos.before (r.startLine, r.startCharacter) (r.endLine, r.endCharacter)

/-- The contract of `sort.Sort`: a permutation in which no later element is less than an
earlier one. -/
def SortsBy {α : Type} (less : α → α → Bool) (sort : List α → List α) : Prop :=
  ∀ t, (sort t).Perm t ∧ (sort t).Pairwise (fun a b => less b a = false)

/-- The decoder of the Language Server Protocol: five numbers per token, line relative to the
previous token, start character relative to the previous token when on the same line. -/
def semDecode (line start : Int) : List Nat → Option (List SemanticToken)
  | [] => some []
  | dl :: ds :: len :: ty :: md :: rest =>
    let line' := line + dl
    let start' := if dl = 0 then start + ds else (ds : Int)
    (semDecode line' start' rest).map
      (fun ts => { line := line', index := start', length := len, type := ty, modifiers := md } :: ts)
  | _ => none

/-- All numbers of a semantic token fit in 32 bits. -/
def Fits (t : SemanticToken) : Prop :=
  (0 ≤ t.line ∧ t.line < 4294967296) ∧ (0 ≤ t.index ∧ t.index < 4294967296) ∧
  (0 ≤ t.length ∧ t.length < 4294967296) ∧ (0 ≤ t.type ∧ t.type < 4294967296) ∧
  (0 ≤ t.modifiers ∧ t.modifiers < 4294967296)

end Teal.Spec
