import Verif.Spec.Lexer
import Verif.Model.Print

/-!
# Programs as written
-/

namespace Teal.Spec

/-- `Writes raw v`: the text `raw` is read as the one word `v`: it is an unquoted word that does not
begin like a comment, or a quoted one. -/
inductive Writes : Bytes → Bytes → Prop
  | bare (v : Bytes) (hne : v ≠ []) (hq : v.head? ≠ some chQuote) (hsl : v.take 2 ≠ [chSlash, chSlash])
      (hv : ∀ x ∈ v, ¬ Stop x) : Writes v v
  | quoted (body u : Bytes) (hu : Unescaped body u) (hbody : NoQuote chQuote body) (hlast : lastByte body ≠ chBackslash) :
      Writes (chQuote :: (body ++ [chQuote])) (chQuote :: (u ++ [chQuote]))

/-- Words with single spaces between them. -/
def lineText : List Bytes → Bytes
  | [] => []
  | [w] => w
  | w :: ws => w ++ chSpace :: lineText ws

/-- Lines, each with a line feed at its end. -/
def linesText (ls : List (List Bytes)) : Bytes := ls.flatMap fun l => lineText l ++ [chLF]

/-- `raws` written, word by word, is read as `vs`. -/
inductive WritesAll : List Bytes → List Bytes → Prop
  | nil : WritesAll [] []
  | cons (raw v : Bytes) (raws vs : List Bytes) (h : Writes raw v) (h' : WritesAll raws vs) : WritesAll (raw :: raws) (v :: vs)

/-- `raws` written, line by line, is read as `vs`. -/
inductive WritesLines : List (List Bytes) → List (List Bytes) → Prop
  | nil : WritesLines [] []
  | cons (raw v : List Bytes) (raws vs : List (List Bytes)) (h : WritesAll raw v) (h' : WritesLines raws vs) :
      WritesLines (raw :: raws) (v :: vs)

end Teal.Spec
