import Verif.Spec.Places

/-!
# Specification: the line breaks in strings
-/

namespace Teal.Spec

open Teal

/-- The number of line breaks in the strings among the pieces. -/
def brokenLines (ps : List Piece) : Nat := (ps.map fun p => if p.tok.t = .eol then 0 else breaks p.raw).sum

end Teal.Spec
