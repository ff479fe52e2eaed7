import Verif.Spec.Program
import Verif.Spec.Opcodes
import Verif.Spec.Flow
import Verif.Spec.Lexer

/-!
# Which texts are valid programs
-/

namespace Teal.Spec

open Teal

/-- `ValidProgram addrOk src ts os`: the text `src`, with the tokens `ts`, is the program `os`, and the program
keeps all rules of the language that can be checked without running it. -/
structure ValidProgram (addrOk : Bytes → Bool) (src : Bytes) (ts : List Token) (os : List Op) : Prop where
  /-- every string that is opened is closed -/
  closed : ¬ ∃ pre s, src = pre ++ chQuote :: s ∧ (readTokens pre).2 = [] ∧ OpensLiteral readTokens pre ∧ NoQuote chQuote s
  /-- every line is an instruction, a label, a version or blank -/
  program : Program addrOk 1 (wordLines ts) os
  /-- every opcode is there in the version and mode of its line -/
  available : ∀ (k V : Nat) (sig : Bool) (t : Token) (d : DocOp), (words ts k).head? = some t → d ∈ docOps → d.name = t.v →
    VersionAt ts k V → (sig = true ↔ SigAt ts k) → ∃ m, d.since sig = some m ∧ m ≤ V
  /-- labels referred to are there -/
  defined : ∀ (i : Nat) (o : Op) (n : Bytes), At os i o → Refers o n → ∃ j, DefinedAt os n j
  /-- and only once -/
  unique : ∀ (n : Bytes) (i j : Nat), DefinedAt os n i → DefinedAt os n j → i = j
  /-- the version comes first -/
  first : ∀ (k v : Nat), At os k (.pragma v) → ∀ (i : Nat) (o : Op), i < k → At os i o → NoOp o ∧ ∀ v', o ≠ .pragma v'
  /-- no jump back closes a loop that cannot be left -/
  loops : ∀ (k j : Nat) (n : Bytes), At os k (.branch .b n) → DefinedAt os n j → j < k → ∃ i, j ≤ i ∧ i ≤ k ∧ Exit os j k i

/-- A line on which the code reads what the reference says: nothing follows a label; a version is one
number below 256; and the operands of an opcode are `Regular`.  The versions of `args` are wrong in the code. -/
def TidyLine (ver : Nat) : List Bytes → Prop
  | [] => True
  | w :: ws =>
    if w.getLast? = some chColon then ws = []
    else if w = b!"#pragma" then ∀ n, SetsVersion (w :: ws) n → ws.length = 2 ∧ n < 256
    else w ≠ b!"args" ∧ Regular ver w ws

/-- A text of such lines. -/
def Tidy (ts : List Token) : Prop := ∀ k ver, VersionAt ts k ver → TidyLine ver ((words ts k).map Token.v)

end Teal.Spec
