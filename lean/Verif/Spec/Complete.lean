import Verif.Spec.Hints
import Verif.Spec.Opcodes
import Verif.Spec.Consts
import Verif.Spec.Label
import Verif.Model.Query

/-!
# What can stand at the cursor

Completion, documentation and signatures, for a cursor on a line with an opcode and operands.
-/

namespace Teal.Lsp.Spec

open Teal Teal.Spec

/-- The cursor in column `c` is on operand `i` of the operands `rest`, or behind all of them, where
operand `i` comes next. -/
inductive Meant (rest : List Token) (c : Int) : Nat → Prop
  | on (i : Nat) (t : Token) (h : rest[i]? = some t) (hb : (t.b : Int) ≤ c) (he : c ≤ t.e)
      (hp : ∀ (j : Nat) p, j < i → rest[j]? = some p → (p.e : Int) < c) : Meant rest c i
  | next (h : ∀ t ∈ rest, (t.e : Int) < c) : Meant rest c rest.length

/-- The operand the server goes by: the first one the cursor in column `c` is on and, if it is on none,
the one behind the last, wherever the cursor is. -/
inductive Pointed (rest : List Token) (c : Int) : Nat → Prop
  | on (i : Nat) (t : Token) (h : rest[i]? = some t) (hb : (t.b : Int) ≤ c) (he : c ≤ t.e)
      (hp : ∀ (j : Nat) p, j < i → rest[j]? = some p → ¬ ((p.b : Int) ≤ c ∧ c ≤ p.e)) : Pointed rest c i
  | off (h : ∀ t ∈ rest, ¬ ((t.b : Int) ≤ c ∧ c ≤ t.e)) : Pointed rest c rest.length

/-- The words of line `k` are `w` and `rest`.  Where there are none, the server takes the comment for one. -/
def Begins (ts : List Token) (k : Nat) (w : Token) (rest : List Token) : Prop :=
  words ts k = w :: rest ∨ (words ts k = [] ∧ comments ts k = w :: rest)

/-- The text defines label `n`: a line begins with the word `n:`. -/
def HasLabel (ts : List Token) (n : Bytes) : Prop :=
  n ≠ [] ∧ ∃ k t, (words ts k).head? = some t ∧ t.v = n ++ [chColon]

/-- Operand `i` (from 0) of opcode `w` can be written `name`, which stands for the number `val`, if for
one.  `ver` is the version of the program. -/
inductive Candidate (ts : List Token) (ver : Nat) : Bytes → Nat → Bytes → Option Nat → Prop
  /-- a label, for a jump or a call -/
  | target (w name : Bytes) (h : w ∈ [b!"b", b!"bz", b!"bnz", b!"callsub"]) (hd : HasLabel ts name) :
      Candidate ts ver w 0 name none
  /-- a label, for a jump with several targets -/
  | targets (w name : Bytes) (i : Nat) (h : w ∈ [b!"switch", b!"match"]) (hd : HasLabel ts name) :
      Candidate ts ver w i name none
  /-- a named integer, but for the invalid type of transactions -/
  | const (name : Bytes) (n : Nat) (h : NamedConst name n)
      (hu : name ∉ [b!"unknown", b!"Unknown type. Invalid transaction"]) : Candidate ts ver b!"int" 0 name (some n)
  /-- a field the version has -/
  | field (w name : Bytes) (i n : Nat) (h : FieldName w i n name) (hk : KnownAt ver w name) :
      Candidate ts ver w i name (some n)

/-- What is offered for operand `i` of opcode `w`. -/
inductive Offered (ts : List Token) (ver : Nat) (w : Bytes) (i : Nat) : ArgVal → Prop
  /-- every label of the text, with the comments above it and the numbers of arguments and results -/
  | label (k : Nat) (n : Bytes) (cs : List Bytes) (sig : Option (Nat × Nat))
      (h : (w ∈ [b!"b", b!"bz", b!"bnz", b!"callsub"] ∧ i = 0) ∨ w ∈ [b!"switch", b!"match"])
      (hl : LabelLine ts k n) (hc : CommentsAbove ts k cs) (hs : ∀ a r, sig = some (a, r) ↔ FunctionOf ts n a r) :
      Offered ts ver w i ⟨n, none, sig, [chLF].intercalate cs⟩
  /-- a name for a number -/
  | value (name : Bytes) (n : Nat) (h : Candidate ts ver w i name (some n)) : Offered ts ver w i ⟨name, some n, none, []⟩

/-- Operand `i` of opcode `w` is a field, and number `n` of the fields it is one of is called `name`. -/
def TableName (w : Bytes) (i n : Nat) (name : Bytes) : Prop :=
  (∃ m nm, FieldName w i m nm) ∧
    ((∃ names k d, (w, names, k) ∈ fieldOps ∧ names[n]? = some d ∧ d.name = name) ∨
     (w ∉ fieldOps.map (·.1) ∧ ∃ d, txnFields[n]? = some d ∧ d.name = name))

/-- The opcodes on elliptic curve groups. -/
def ecOps : List Bytes :=
  [b!"ec_add", b!"ec_scalar_mul", b!"ec_pairing_check", b!"ec_multi_exp", b!"ec_subgroup_check", b!"ec_map_to"]

/-- The opcodes the server has no description of. -/
def undescribed : List Bytes := ecOps ++ [b!"int", b!"byte", b!"addr", b!"method", b!"replace"]

/-- The opcodes whose operands are a list. -/
def listOps : List Bytes := [b!"intcblock", b!"pushints", b!"bytecblock", b!"pushbytess", b!"switch", b!"match"]

end Teal.Lsp.Spec
