import Verif.Spec.Source
import Verif.Spec.Instr

/-!
# What belongs to a label

The comments written above a label, and the numbers of arguments and results of the function that begins
with it.
-/

namespace Teal.Spec

open Teal

/-- Line `k` defines the label `n`. -/
def LabelLine (ts : List Token) (k : Nat) (n : Bytes) : Prop :=
  n ≠ [] ∧ ∃ t, (words ts k).head? = some t ∧ t.v = n ++ [chColon]

/-- The comment of a line that has nothing else, unless it says that the program is a logic signature. -/
def ownComment (ts : List Token) (k : Nat) : List Bytes :=
  if words ts k = [] then ((comments ts k).map Token.v).filter fun c => trimSpace c ≠ b!"#pragma mode logicsig" else []

/-- `cs` are the comments on lines of their own between line `k` and the last label above it, or the
beginning of the text. -/
def CommentsAbove (ts : List Token) (k : Nat) (cs : List Bytes) : Prop :=
  ∃ j, j ≤ k ∧ (j = 0 ∨ ∃ n, LabelLine ts (j - 1) n) ∧ (∀ i n, j ≤ i → i < k → ¬ LabelLine ts i n) ∧
    cs = (List.range' j (k - j)).flatMap (ownComment ts)

/-- The lines from `j` to before `k` have nothing but a comment each, and from the last label above them, or the
beginning of the text, to line `j` no line has a comment and nothing else. -/
def OnlyBlock (ts : List Token) (j k : Nat) : Prop :=
  j ≤ k ∧ (∀ i, j ≤ i → i < k → words ts i = [] ∧ comments ts i ≠ []) ∧
    ∃ l, l ≤ j ∧ (l = 0 ∨ ∃ n, LabelLine ts (l - 1) n) ∧
      ∀ i, l ≤ i → i < j → (∀ n, ¬ LabelLine ts i n) ∧ (words ts i = [] → comments ts i = [])

/-- The last label above line `k` is `n`. -/
def Under (ts : List Token) (k : Nat) (n : Bytes) : Prop :=
  ∃ j, j < k ∧ LabelLine ts j n ∧ ∀ i m, j < i → i < k → ¬ LabelLine ts i m

/-- Line `k` is `proto a r`; words behind these do not matter. -/
def ProtoLine (ts : List Token) (k a r : Nat) : Prop :=
  ∃ t x y rest, words ts k = t :: x :: y :: rest ∧ t.v = b!"proto" ∧ IsByte x.v a ∧ IsByte y.v r

/-- The last `proto` below the label `n`, and not below another one, is `proto a r`. -/
def FunctionOf (ts : List Token) (n : Bytes) (a r : Nat) : Prop :=
  ∃ k, ProtoLine ts k a r ∧ Under ts k n ∧ ∀ k' a' r', k < k' → ProtoLine ts k' a' r' → ¬ Under ts k' n

end Teal.Spec
