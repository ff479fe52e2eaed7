import Verif.Spec.Lexer
import Verif.Model.Lsp

/-!
# Edits of a text

What it means to apply a set of text edits, as editors do: line and column name an offset of the
text, and all edits refer to the text before any of them.
-/

namespace Teal.Lsp.Spec

open Teal Teal.Spec

/-- Line `l`, column `c` of the text is at offset `o`, which is not inside a line break. -/
def At (src : Bytes) (l c o : Nat) : Prop :=
  ∃ pre post, src = pre ++ post ∧ pre.length = o ∧ breaks pre = l ∧ column pre = c ∧
    ¬ (pre.getLast? = some chCR ∧ post.head? = some chLF)

/-- A replacement of the bytes from offset `start` up to offset `stop`. -/
structure Cut where
  start : Nat
  stop : Nat
  text : Bytes

/-- The replacement an edit asks for. -/
def IsCut (src : Bytes) (e : TextEdit) (c : Cut) : Prop :=
  ∃ l b l' b' : Nat, e.range = ⟨⟨l, b⟩, ⟨l', b'⟩⟩ ∧ At src l b c.start ∧ At src l' b' c.stop ∧ e.newText = c.text

/-- The text with the replacements made, from left to right; it starts at offset `o`. -/
def splice (o : Nat) : List Cut → Bytes → Bytes
  | [], s => s
  | c :: cs, s => s.take (c.start - o) ++ c.text ++ splice c.stop cs (s.drop (c.stop - o))

/-- `Edited src es src'`: applying the edits `es` to the text `src` gives `src'`. -/
def Edited (src : Bytes) (es : List TextEdit) (src' : Bytes) : Prop :=
  ∃ cuts : List Cut, (∀ e ∈ es, ∃ c ∈ cuts, IsCut src e c) ∧ (∀ c ∈ cuts, ∃ e ∈ es, IsCut src e c) ∧
    (∀ c ∈ cuts, c.start ≤ c.stop) ∧ cuts.Pairwise (fun a b => a.stop ≤ b.start ∧ a.start < b.stop) ∧
    src' = splice 0 cuts src

/-- The instruction with label `n` called `new`. -/
def renamed (n new : Bytes) : Op → Op
  | .label m => .label (if m = n then new else m)
  | .branch k l => .branch k (if l = n then new else l)
  | .switch ls => .switch (ls.map fun l => if l = n then new else l)
  | .match_ ls => .match_ (ls.map fun l => if l = n then new else l)
  | o => o

/-- A word that can be written without quotes. -/
def PlainWord (w : Bytes) : Prop :=
  w ≠ [] ∧ w.head? ≠ some chQuote ∧ w.take 2 ≠ [chSlash, chSlash] ∧ ∀ x ∈ w, ¬ Stop x

end Teal.Lsp.Spec
