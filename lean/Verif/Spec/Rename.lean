import Verif.Spec.Lsp

/-!
# Labels under the cursor

Where a text defines labels and refers to them, on its tokens.
-/

namespace Teal.Lsp.Spec

open Teal Teal.Spec

/-- Label `n` occurs on line `l` from column `b` to column `e`: it is defined there, the colon
not included, or an instruction refers to it. -/
inductive Occurs (ts : List Token) (n : Bytes) : Nat → Nat → Nat → Prop
  | definition (l : Nat) (t : Token) (ht : labelWord ts l = some t) (hn : labelName t.v = some n) :
      Occurs ts n l t.b (t.b + n.length)
  | reference (l : Nat) (t : Token) (ht : t ∈ labelOperands (words ts l)) (hn : t.v = n) :
      Occurs ts n l t.b t.e

/-- The cursor is on the word `t`, at its ends included. -/
def On (p : Pos) (t : Token) : Prop := p.line = t.l ∧ t.b ≤ p.character ∧ p.character ≤ t.e

/-- The cursor is on the word `t`, which defines label `n` or refers to it. -/
inductive Under (ts : List Token) (p : Pos) : Token → Bytes → Prop
  | definition (t : Token) (n : Bytes) (ht : labelWord ts t.l = some t) (hn : labelName t.v = some n)
      (hp : On p t) : Under ts p t n
  | reference (t : Token) (ht : t ∈ labelOperands (words ts t.l)) (hp : On p t) : Under ts p t t.v

/-- Two ranges on lines share no character. -/
def Apart (a b : Rg) : Prop :=
  a.start.line ≠ b.start.line ∨ a.stop.character ≤ b.start.character ∨ b.stop.character ≤ a.start.character

/-- A definition of label `n`, without its colon. -/
def Defines (ts : List Token) (n : Bytes) (l b e : Nat) : Prop :=
  ∃ t, labelWord ts l = some t ∧ labelName t.v = some n ∧ b = t.b ∧ e = t.b + n.length

/-- A word that refers to a label, under the cursor. -/
def RefUnder (ts : List Token) (p : Pos) (t : Token) : Prop := t ∈ labelOperands (words ts t.l) ∧ On p t

/-- The references of the first `k` lines. -/
def refsUpTo (ts : List Token) (k : Nat) : List Token :=
  (List.range k).flatMap fun l => labelOperands (words ts l)

/-- How often the text refers to label `n`. -/
def refsTo (ts : List Token) (n : Bytes) : Nat :=
  ((refsUpTo ts (lineCount ts)).filter fun t => decide (t.v = n)).length

/-- The value of a switch: what the last `initialize` request that mentions it said, or on. -/
def setting (f : Options → Option Bool) (ms : List Msg) : Bool :=
  ((ms.filterMap fun m =>
    if m.response then none
    else
      match m.call with
      | .initialize (.given (some o)) => f o
      | _ => none).getLast?).getD true

/-- A session, and the result the server answers a question about document `u` with. -/
structure Answered (h : Host) (ms : List (Choice × Msg)) (u t : Bytes) (q : Query) (a : Result) : Prop where
  running : Running h ms
  open_ : Holds (ms.map (·.2)) u t
  up : ¬ ∃ y ∈ ms, IsShutdown y.2
  reply : ∃ ch id, (run h (ms ++ [(ch, ⟨false, id, .query (.given (u, q))⟩)])).sent = (run h ms).sent ++ [.reply id a]

end Teal.Lsp.Spec
