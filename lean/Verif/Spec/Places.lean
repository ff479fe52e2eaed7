import Verif.Spec.Lexer

/-!
# Specification: where the lexer says a token is
-/

namespace Teal.Spec

open Teal

/-- The number of line breaks between tokens. -/
def lineTokens (ps : List Piece) : Nat := (ps.filter fun p => p.tok.t = .eol).length

/-- The text behind the last line break between tokens (the line breaks in strings do not count). -/
def sinceLine (ps : List Piece) : Bytes := textOf (ps.reverse.takeWhile fun p => p.tok.t ≠ .eol).reverse

/-- The end of a text behind its tokens: blanks, and perhaps a string that is not closed. -/
def Ends (tail : Bytes) : Prop :=
  (∀ x ∈ tail, Blank x) ∨ ∃ bl s, tail = bl ++ chQuote :: s ∧ (∀ x ∈ bl, Blank x) ∧ NoQuote chQuote s

end Teal.Spec
