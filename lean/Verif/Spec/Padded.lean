import Verif.Spec.Source
import Verif.Spec.Lexer

/-!
# Specification: a text with blank lines behind it
-/

namespace Teal.Spec

open Teal

/-- `src'` has on every line the words and comments `src` has there, and at least as many lines behind the
last line of `src` as `src` has: lines without a word and without a comment. -/
structure Padded (src src' : Bytes) : Prop where
  more : 2 * lineCount (readTokens src).1 ≤ lineCount (readTokens src').1
  words : ∀ k, Spec.words (readTokens src').1 k = Spec.words (readTokens src).1 k
  comments : ∀ k, Spec.comments (readTokens src').1 k = Spec.comments (readTokens src).1 k

/-- `n` line breaks. -/
def lineBreaks (n : Nat) : Bytes := (List.replicate n [chCR, chLF]).flatten

end Teal.Spec
