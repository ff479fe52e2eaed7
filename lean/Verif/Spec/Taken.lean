import Verif.Spec.Accept

/-!
# The operands the code takes

The language of operands of `Spec.Instr`, and what the code takes beyond it.
-/

namespace Teal.Spec

open Teal

/-- The words the code takes for a byte constant: whatever follows the closing parenthesis of an encoded
constant in the same word is dropped. -/
inductive TakenBytes : List Bytes → Bytes → Prop
  | said (ws : List Bytes) (v : Bytes) (h : IsBytes ws v) : TakenBytes ws v
  | dropped (p s z v : Bytes) (hp : p ∈ parenHeads) (hs : 41 ∉ s) (h : IsBytes [p ++ s ++ [41]] v) : TakenBytes [p ++ s ++ 41 :: z] v

/-- `Taken addrOk ver w ws o`: the code takes the opcode `w` with the operands `ws` for the instruction `o`. -/
inductive Taken (addrOk : Bytes → Bool) (ver : Nat) : Bytes → List Bytes → Op → Prop
  /-- as the reference has it -/
  | said (w : Bytes) (ws : List Bytes) (o : Op) (hw : w ≠ b!"gitxna") (h : Instr addrOk ver w ws o) : Taken addrOk ver w ws o
  /-- the names of array fields are known to every version -/
  | early (v : Nat) (w : Bytes) (ws : List Bytes) (o : Op) (hw : w ∈ arrayOps) (hg : w ≠ b!"gitxna") (h : Instr addrOk v w ws o) :
      Taken addrOk ver w ws o
  /-- any field can have an index -/
  | indexed (w x y : Bytes) (k : FieldIdxOp) (f i : Nat) (h : (w, k) ∈ [(b!"txn", .txna), (b!"gtxns", .gtxnsa)])
      (hx : IsTxnField ver x f) (hy : IsByte y i) : Taken addrOk ver w [x, y] (.fieldIdx k f i)
  | groupIndexed (x y z : Bytes) (t f i : Nat) (hx : IsByte x t) (hy : IsTxnField ver y f) (hz : IsByte z i) :
      Taken addrOk ver b!"gtxn" [x, y, z] (.groupFieldIdx .gtxna t f i)
  /-- the group index of `gitxna` is any 64-bit integer and its low byte is used -/
  | lowByte (v : Nat) (x y z : Bytes) (t f i : Nat) (hx : IsUint x t) (hy : IsArrayField v y f) (hz : IsByte z i) :
      Taken addrOk ver b!"gitxna" [x, y, z] (.groupFieldIdx .gitxna (t % 256) f i)
  | byte (ws : List Bytes) (v : Bytes) (h : TakenBytes ws v) : Taken addrOk ver b!"byte" ws (.byte v)
  | pushbytes (ws : List Bytes) (v : Bytes) (h : TakenBytes ws v) : Taken addrOk ver b!"pushbytes" ws (.pushbytes v)
  | bytecblock (ws : List Bytes) (vs : List Bytes) (h : Several TakenBytes ws vs) : Taken addrOk ver b!"bytecblock" ws (.bytecblock vs)
  | pushbytess (ws : List Bytes) (vs : List Bytes) (h : Several TakenBytes ws vs) : Taken addrOk ver b!"pushbytess" ws (.pushbytess vs)

/-- `TakenProgram addrOk ver ls os`: the code takes the lines `ls`, with `ver` the version in force on the first, for the
instructions `os`, one for each line. -/
inductive TakenProgram (addrOk : Bytes → Bool) : Nat → List (List Bytes) → List Op → Prop
  | nil (ver : Nat) : TakenProgram addrOk ver [] []
  | blank (ver : Nat) (ls : List (List Bytes)) (os : List Op) (h : TakenProgram addrOk ver ls os) :
      TakenProgram addrOk ver ([] :: ls) (.empty :: os)
  /-- whatever follows a label on its line is dropped -/
  | label (ver : Nat) (n : Bytes) (hn : n ≠ []) (dropped : List Bytes) (ls : List (List Bytes)) (os : List Op)
      (h : TakenProgram addrOk ver ls os) : TakenProgram addrOk ver (((n ++ [58]) :: dropped) :: ls) (.label n :: os)
  /-- and so is what follows a version; the version is any integer from 1 on, of which the instruction has the low byte -/
  | version (ver : Nat) (s : Bytes) (n : Nat) (hs : IsUint s n) (h1 : 1 ≤ n) (dropped : List Bytes)
      (ls : List (List Bytes)) (os : List Op) (h : TakenProgram addrOk n ls os) :
      TakenProgram addrOk ver ((b!"#pragma" :: b!"version" :: s :: dropped) :: ls) (.pragma (n % 256) :: os)
  | instr (ver : Nat) (w : Bytes) (ws : List Bytes) (o : Op) (ho : Taken addrOk ver w ws o)
      (ls : List (List Bytes)) (os : List Op) (h : TakenProgram addrOk ver ls os) : TakenProgram addrOk ver ((w :: ws) :: ls) (o :: os)

/-- The version from which the code lets programs have an opcode: as the reference has it, but for `args`, for
which applications and logic signatures are mixed up. -/
def takenSince (d : DocOp) (sig : Bool) : Option Nat := if d.name = b!"args" then d.since (!sig) else d.since sig

/-- `AcceptedProgram addrOk src ts os`: the text `src`, with the tokens `ts`, is one that the code takes for the program
`os` and has nothing to say against. -/
structure AcceptedProgram (addrOk : Bytes → Bool) (src : Bytes) (ts : List Token) (os : List Op) : Prop where
  closed : ¬ ∃ pre s, src = pre ++ chQuote :: s ∧ (readTokens pre).2 = [] ∧ OpensLiteral readTokens pre ∧ NoQuote chQuote s
  program : TakenProgram addrOk 1 (wordLines ts) os
  available : ∀ (k V : Nat) (sig : Bool) (t : Token) (d : DocOp), (words ts k).head? = some t → d ∈ docOps → d.name = t.v →
    VersionAt ts k V → (sig = true ↔ SigAt ts k) → ∃ m, takenSince d sig = some m ∧ m ≤ V
  defined : ∀ (i : Nat) (o : Op) (n : Bytes), At os i o → Refers o n → ∃ j, DefinedAt os n j
  unique : ∀ (n : Bytes) (i j : Nat), DefinedAt os n i → DefinedAt os n j → i = j
  first : ∀ (k v : Nat), At os k (.pragma v) → ∀ (i : Nat) (o : Op), i < k → At os i o → NoOp o ∧ ∀ v', o ≠ .pragma v'
  loops : ∀ (k j : Nat) (n : Bytes), At os k (.branch .b n) → DefinedAt os n j → j < k → ∃ i, j ≤ i ∧ i ≤ k ∧ Exit os j k i

end Teal.Spec
