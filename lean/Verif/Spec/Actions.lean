import Verif.Spec.Hints
import Verif.Spec.Opcodes
import Verif.Spec.Flow

/-!
# Quick fixes for lines, labels and versions

Which lines a program can do without, which version an instruction needs, and what an editor makes
of an edit.
-/

namespace Teal.Lsp.Spec

open Teal Teal.Spec

/-- The range has a position on line `k`. -/
def Covers (rg : Rg) (k : Nat) : Prop := rg.start.line ≤ k ∧ k ≤ rg.stop.line

/-- Line `k` of the program can go: it is a label nothing refers to, or a jump `b n` with nothing
but empty lines, comments and pragmas between it and the label `n`. -/
inductive Dispensable (l : List Op) (k : Nat) : Prop
  | label (n : Bytes) (h : DefinedAt l n k) (hu : ¬ ∃ i o, Teal.Spec.At l i o ∧ Refers o n)
  | jump (n : Bytes) (j : Nat) (h : Teal.Spec.At l k (.branch .b n)) (hj : k < j) (hd : DefinedAt l n j)
      (hb : ∀ i, k < i → i < j → ∃ o, Teal.Spec.At l i o ∧ NoOp o ∧ ∀ m, ¬ DefinedAt l m i)

/-- The instruction on line `k` came with version `v`, in the mode of the line, and an earlier version
is in force there. -/
def Needs (ts : List Token) (k v : Nat) : Prop :=
  ∃ V sig w d, VersionAt ts k V ∧ (sig = true ↔ SigAt ts k) ∧ (words ts k).head? = some w ∧ d ∈ docOps ∧ d.name = w.v ∧
    d.since sig = some v ∧ V < v

/-- The range and what is written on line `k`, from the first to the last word, have a position in
common. -/
def MeetsLine (rg : Rg) (ts : List Token) (k : Nat) : Prop :=
  ∃ w w', (words ts k).head? = some w ∧ (words ts k).getLast? = some w' ∧ Pos.Le rg.start ⟨k, w'.e⟩ ∧ Pos.Le ⟨k, w.b⟩ rg.stop

/-- The columns of what is written on line `k` and those of the ends of the range cross. -/
def LevelLine (rg : Rg) (ts : List Token) (k : Nat) : Prop :=
  ∃ w w', (words ts k).head? = some w ∧ (words ts k).getLast? = some w' ∧ Level rg w.b w'.e

/-- The offset an editor takes line `l`, column `c` for: the end of the line, if it has no such
column, and the end of the text, if it has no such line. -/
inductive Place (src : Bytes) (l c : Nat) : Nat → Prop
  | there (o : Nat) (h : At src l c o) : Place src l c o
  | lineEnd (c' o : Nat) (h : At src l c' o) (hc : c' < c) (he : ∀ x, src[o]? = some x → Break x) : Place src l c o
  | textEnd (h : breaks src < l) : Place src l c src.length

/-- The text after one edit. -/
def Applied (src : Bytes) (e : TextEdit) (src' : Bytes) : Prop :=
  ∃ l b l' b' o o' : Nat, e.range = ⟨⟨l, b⟩, ⟨l', b'⟩⟩ ∧ Place src l b o ∧ Place src l' b' o' ∧ o ≤ o' ∧
    src' = src.take o ++ e.newText ++ src.drop o'

/-- Every carriage return of the text is followed by a line feed. -/
def CrLf (src : Bytes) : Prop := ∀ i, src[i]? = some chCR → src[i + 1]? = some chLF

/-- No string of the text goes on over a line break. -/
def OneLine (ts : List Token) : Prop := ∀ t ∈ ts, t.t = .value → ∀ x ∈ t.v, ¬ Break x

/-- Line `k` says which version the program is written for, with the word `t`; the version may be 0,
which is no version. -/
def VersionWord (ts : List Token) (k : Nat) (t : Token) : Prop :=
  ∃ a b rest n, words ts k = a :: b :: t :: rest ∧ a.v = b!"#pragma" ∧ b.v = b!"version" ∧ IntLiteral t.v n ∧ n < 2 ^ 64

/-- Line `k` is the last one that says which version the program is written for. -/
def LastVersionLine (ts : List Token) (k : Nat) : Prop :=
  (∃ t, VersionWord ts k t) ∧ ∀ j > k, ∀ t, ¬ VersionWord ts j t

end Teal.Lsp.Spec
