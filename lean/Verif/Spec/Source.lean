import Verif.Spec.Numbers
import Verif.Model.Process

/-!
# What the lines of a source text say

Stated on the tokens of the text (whose relation to the text is the subject of C01–C06), line by
line, without reference to how `Process` reads them.
-/

namespace Teal.Spec

open Teal

/-- The words on line `k`. -/
def words (ts : List Token) (k : Nat) : List Token :=
  ts.filter fun t => decide (t.l = k) && decide (t.t = .value)

/-- The comments on line `k`. -/
def comments (ts : List Token) (k : Nat) : List Token :=
  ts.filter fun t => decide (t.l = k) && decide (t.t = .comment)

/-- The number of lines up to the last token. -/
def lineCount (ts : List Token) : Nat := (ts.getLast?.map (·.l + 1)).getD 0

/-- The name a word defines: the word without its final colon. -/
def labelName (w : Bytes) : Option Bytes :=
  if w.getLast? = some chColon ∧ w ≠ [chColon] then some w.dropLast else none

/-- The word that defines a label on line `k`. -/
def labelWord (ts : List Token) (k : Nat) : Option Token :=
  (words ts k).head?.filter fun t => (labelName t.v).isSome

/-- The words among the words of a line that are read as labels to branch to. -/
def labelOperands : List Token → List Token
  | [] => []
  | t :: rest =>
    if t.v ∈ [b!"b", b!"bz", b!"bnz", b!"callsub"] then rest.take 1
    else if t.v ∈ [b!"switch", b!"match"] then rest
    else []

/-- A line setting the version to `n`: `#pragma version`, an integer literal for `n ≥ 1`, and
possibly more words. -/
def SetsVersion (ws : List Bytes) (n : Nat) : Prop :=
  ∃ s rest, ws = b!"#pragma" :: b!"version" :: s :: rest ∧ IntLiteral s n ∧ 1 ≤ n ∧ n < 2 ^ 64

/-- The version in force on line `k`. -/
inductive VersionAt (ts : List Token) : Nat → Nat → Prop
  | first : VersionAt ts 0 1
  | set (k n : Nat) (h : SetsVersion ((words ts k).map Token.v) n) : VersionAt ts (k + 1) n
  | keep (k v : Nat) (h : VersionAt ts k v) (hn : ∀ n, ¬ SetsVersion ((words ts k).map Token.v) n) :
      VersionAt ts (k + 1) v

/-- A line with nothing but the comment that switches to logic signature mode. -/
def ModeLine (ts : List Token) (k : Nat) : Prop :=
  words ts k = [] ∧ ∃ c ∈ comments ts k, trimSpace c.v = b!"#pragma mode logicsig"

/-- Line `k` is read in logic signature mode. -/
def SigAt (ts : List Token) (k : Nat) : Prop := ∃ j < k, ModeLine ts j

/-- `Process` reported no line as having more words than its instruction takes. -/
def NoSurplus (r : ProcessResult) : Prop := ∀ d ∈ r.diagnostics, d.kind ≠ .parse .tooManyValues

end Teal.Spec
