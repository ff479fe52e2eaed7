import Verif.Spec.Cli
import Verif.Spec.Numbers
import Verif.Spec.Source
import Verif.Spec.Lexer
import Verif.Spec.Message
import Verif.Model.Diag

/-!
# What the small tools print
-/

namespace Teal.CliSpec

open Teal Teal.Spec

/-- The kind of a token and, unless it ends a line, its text. -/
inductive Named : Token → Bytes → Prop
  | eol {t : Token} : t.t = .eol → Named t b!"EOL"
  | value {t : Token} : t.t = .value → Named t (b!"Value = " ++ t.v)
  | comment {t : Token} : t.t = .comment → Named t (b!"Comment = " ++ t.v)

/-- A line about a token: line, first column, the column behind it, all counted from one, and what it is. -/
def TokenLine (t : Token) (s : Bytes) : Prop :=
  ∃ l b e k, DecimalOf (t.l + 1) l ∧ DecimalOf (t.b + 1) b ∧ DecimalOf (t.e + 1) e ∧ Named t k ∧
    s = l ++ 58 :: b ++ 58 :: e ++ 58 :: 32 :: k ++ [10]

/-- The same token, but for how the end of a line is spelled. -/
def SameToken (t u : Token) : Prop := t.l = u.l ∧ t.b = u.b ∧ t.e = u.e ∧ t.t = u.t ∧ (t.t ≠ .eol → t.v = u.v)

/-- A string is opened and not closed. -/
def Unclosed (src : Bytes) : Prop :=
  ∃ pre s, src = pre ++ chQuote :: s ∧ (readTokens pre).2 = [] ∧ OpensLiteral readTokens pre ∧ NoQuote chQuote s

/-- What a line about a diagnostic calls it: a warning if it is about an unused label, code that cannot
be reached or a jump to the next line, and an error otherwise. -/
def Rank (k : DiagKind) (s : Bytes) : Prop :=
  (((∃ n, k = .lint (.unusedLabel n)) ∨ k = .lint .unreachable ∨ k = .lint .bJustBefore) ∧ s = b!"warn") ∨
  (¬ ((∃ n, k = .lint (.unusedLabel n)) ∨ k = .lint .unreachable ∨ k = .lint .bJustBefore) ∧ s = b!"error")

/-- A line about a diagnostic: line and columns, counted from zero, how severe it is and its message,
which is a parameter if it is about an operand. -/
def DiagLine (operand : Diag → Bytes) (d : Diag) (s : Bytes) : Prop :=
  ∃ l b e r m, DecimalOf d.l l ∧ DecimalOf d.b b ∧ DecimalOf d.e e ∧ Rank d.kind r ∧
    (Tells d.kind m ∨ (OfOperand d.kind ∧ m = operand d)) ∧ s = l ++ 58 :: b ++ 45 :: e ++ 58 :: r ++ 32 :: m ++ [10]

/-- A line that reports an error. -/
def Blames (s : Bytes) : Prop :=
  ∃ i j k l b e m, DecimalOf i l ∧ DecimalOf j b ∧ DecimalOf k e ∧ s = l ++ 58 :: b ++ 45 :: e ++ 58 :: b!"error" ++ 32 :: m

/-- The command line names the file `p`. -/
def Names (words : List Bytes) (p : Bytes) : Prop := ∃ l, Line [b!"path"] words l ∧ Value l b!"path" [] p

end Teal.CliSpec
