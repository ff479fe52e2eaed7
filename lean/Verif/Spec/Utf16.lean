import Verif.Spec.Edit
import Verif.Spec.Json

/-!
# Specification: positions counted in UTF-16 code units

This is how the language server protocol counts columns unless client and server have agreed on
something else.
-/

namespace Teal.Lsp.Spec

open Teal Teal.Spec Teal.JsonSpec

/-- `Units s n`: the UTF-8 text `s` has `n` code units in UTF-16. -/
inductive Units : Bytes → Nat → Prop
  | nil : Units [] 0
  | cons {n k : Nat} {s : Bytes} : Scalar n → Units s k → Units (utf8 n ++ s) ((if n < 0x10000 then 1 else 2) + k)

/-- The part of a text behind its last line break. -/
def lastLine (s : Bytes) : Bytes := s.drop (s.length - column s)

/-- Line `l`, column `c` of the text, counted in UTF-16 code units, is at offset `o`. -/
def At16 (src : Bytes) (l c o : Nat) : Prop :=
  ∃ pre post, src = pre ++ post ∧ pre.length = o ∧ breaks pre = l ∧ Units (lastLine pre) c ∧
    ¬ (pre.getLast? = some chCR ∧ post.head? = some chLF)

/-- The replacement an edit asks an editor for. -/
def IsCut16 (src : Bytes) (e : TextEdit) (c : Cut) : Prop :=
  ∃ l b l' b' : Nat, e.range = ⟨⟨l, b⟩, ⟨l', b'⟩⟩ ∧ At16 src l b c.start ∧ At16 src l' b' c.stop ∧ e.newText = c.text

/-- `Edited16 src es src'`: an editor that applies the edits `es` to the text `src` gets `src'`. -/
def Edited16 (src : Bytes) (es : List TextEdit) (src' : Bytes) : Prop :=
  ∃ cuts : List Cut, (∀ e ∈ es, ∃ c ∈ cuts, IsCut16 src e c) ∧ (∀ c ∈ cuts, ∃ e ∈ es, IsCut16 src e c) ∧
    (∀ c ∈ cuts, c.start ≤ c.stop) ∧ cuts.Pairwise (fun a b => a.stop ≤ b.start ∧ a.start < b.stop) ∧
    src' = splice 0 cuts src

/-- The characters of the line are ASCII. -/
def AsciiLine (src : Bytes) (l : Nat) : Prop := ∀ c o x, At src l c o → src[o]? = some x → x < 128

end Teal.Lsp.Spec
