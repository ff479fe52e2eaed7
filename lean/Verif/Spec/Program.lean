import Verif.Spec.Instr
import Verif.Spec.Source

/-!
# Programs

The lines of a program as lists of words, and the instructions they stand for.
-/

namespace Teal.Spec

/-- `Program addrOk ver ls os`: the lines `ls`, with `ver` the version in force on the first, are the
instructions `os`, one for each line. -/
inductive Program (addrOk : Bytes → Bool) : Nat → List (List Bytes) → List Op → Prop
  | nil (ver : Nat) : Program addrOk ver [] []
  /-- a line without words -/
  | blank (ver : Nat) (ls : List (List Bytes)) (os : List Op) (h : Program addrOk ver ls os) :
      Program addrOk ver ([] :: ls) (.empty :: os)
  /-- `name:` -/
  | label (ver : Nat) (n : Bytes) (hn : n ≠ []) (ls : List (List Bytes)) (os : List Op) (h : Program addrOk ver ls os) :
      Program addrOk ver ([n ++ [58]] :: ls) (.label n :: os)
  /-- `#pragma version n` sets the version of the lines that follow -/
  | version (ver : Nat) (s : Bytes) (n : Nat) (hs : IntLiteral s n) (h1 : 1 ≤ n) (h2 : n < 256)
      (ls : List (List Bytes)) (os : List Op) (h : Program addrOk n ls os) :
      Program addrOk ver ([b!"#pragma", b!"version", s] :: ls) (.pragma n :: os)
  /-- an instruction -/
  | instr (ver : Nat) (w : Bytes) (ws : List Bytes) (o : Op) (hw : w ≠ b!"gitxna") (ho : Instr addrOk ver w ws o)
      (ls : List (List Bytes)) (os : List Op) (h : Program addrOk ver ls os) :
      Program addrOk ver ((w :: ws) :: ls) (o :: os)
  /-- `gitxna`, whose first operand is written like a 64-bit integer -/
  | gitxna (ver : Nat) (x y z : Bytes) (t f i : Nat) (hx : IsUint x t) (ht : t < 256) (hy : IsArrayField ver y f) (hz : IsByte z i)
      (ls : List (List Bytes)) (os : List Op) (h : Program addrOk ver ls os) :
      Program addrOk ver ([b!"gitxna", x, y, z] :: ls) (.groupFieldIdx .gitxna t f i :: os)

/-- The words of each line of a text with these tokens. -/
def wordLines (ts : List Token) : List (List Bytes) :=
  (List.range (lineCount ts)).map fun k => (words ts k).map Token.v

end Teal.Spec
