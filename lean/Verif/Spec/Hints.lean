import Verif.Spec.Edit
import Verif.Spec.Rename
import Verif.Spec.Instr

/-!
# Hints and quick fixes

What the numbers and byte constants of a text could be written as.
-/

namespace Teal.Lsp.Spec

open Teal Teal.Spec

/-- Operand `i` (from 0) of the opcode `w` is a field, and field number `n` is called `name` there. -/
inductive FieldName : Bytes → Nat → Nat → Bytes → Prop
  | field (w : Bytes) (names : List DocField) (k : FieldOp) (n : Nat) (d : DocField) (h : (w, names, k) ∈ fieldOps)
      (hd : names[n]? = some d) : FieldName w 0 n d.name
  | txn (w : Bytes) (n : Nat) (d : DocTxnField) (h : w ∈ [b!"txn", b!"gtxns", b!"itxn"]) (hd : txnFields[n]? = some d) :
      FieldName w 0 n d.name
  | inner (n : Nat) (d : DocTxnField) (hd : txnFields[n]? = some d) (hi : d.inner ≠ none) : FieldName b!"itxn_field" 0 n d.name
  | array (w : Bytes) (n : Nat) (d : DocTxnField)
      (h : w ∈ [b!"txna", b!"gtxnsa", b!"itxna", b!"txnas", b!"gtxnsas", b!"itxnas"]) (hd : txnFields[n]? = some d)
      (ha : d.array = true) : FieldName w 0 n d.name
  | group (w : Bytes) (n : Nat) (d : DocTxnField) (h : w ∈ [b!"gtxn", b!"gitxn"]) (hd : txnFields[n]? = some d) :
      FieldName w 1 n d.name
  | groupArray (w : Bytes) (n : Nat) (d : DocTxnField) (h : w ∈ [b!"gtxna", b!"gitxna", b!"gtxnas", b!"gitxnas"])
      (hd : txnFields[n]? = some d) (ha : d.array = true) : FieldName w 1 n d.name

/-- The word `t` is a number, in decimal, of a field called `name`. -/
def IsFieldNumber (ts : List Token) (t : Token) (name : Bytes) : Prop :=
  ∃ (w : Token) (rest : List Token) (i n : Nat), words ts t.l = w :: rest ∧ rest[i]? = some t ∧ SignedDecimal t.v n ∧
    FieldName w.v i n name

/-- The version `ver` has the field that the opcode `w` calls `name`. -/
structure KnownAt (ver : Nat) (w name : Bytes) : Prop where
  field : ∀ names k, (w, names, k) ∈ fieldOps → ∀ d ∈ names, d.name = name → d.since ≤ ver
  inner : w = b!"itxn_field" → ∀ d ∈ txnFields, d.name = name → ∀ n, d.inner = some n → n ≤ ver
  txn : w ≠ b!"itxn_field" → w ∉ fieldOps.map (·.1) → ∀ d ∈ txnFields, d.name = name → d.since ≤ ver

/-- The word `t` spells, in hex digits behind `0x`, the bytes `bs`, all of which are printable. -/
def IsHexText (ts : List Token) (t : Token) (bs : Bytes) : Prop :=
  t ∈ words ts t.l ∧ (∃ s, t.v = b!"0x" ++ s ∧ HexOf s bs) ∧ ∀ x ∈ bs, 32 ≤ x ∧ x ≤ 126

/-- The word `t` is a byte constant on its own: an operand of an opcode for byte constants, and the
word before it does not say how it is to be decoded. -/
def IsByteConstant (ts : List Token) (t : Token) : Prop :=
  ∃ (w : Token) (rest : List Token) (i : Nat), words ts t.l = w :: rest ∧ rest[i]? = some t ∧ w.v ∈ byteConstOps ∧
    ∀ p, (w :: rest)[i]? = some p → p.v ∉ [b!"base32", b!"b32", b!"base64", b!"b64"]

/-- The bytes as a string in double quotes, with a backslash before each quote. -/
def quoted (bs : Bytes) : Bytes := 34 :: (bs.flatMap (fun c => if c = 34 then [92, 34] else [c]) ++ [34])

/-- Position `a` is not behind position `b`. -/
def Pos.Le (a b : Pos) : Prop := a.line < b.line ∨ (a.line = b.line ∧ a.character ≤ b.character)

/-- The word `t` and the range have a position in common, at their ends included. -/
def Meets (rg : Rg) (t : Token) : Prop := Pos.Le rg.start ⟨t.l, t.e⟩ ∧ Pos.Le ⟨t.l, t.b⟩ rg.stop

/-- The columns from `b` to `e` and those of the ends of the range cross, whatever the lines. -/
def Level (rg : Rg) (b e : Nat) : Prop := rg.start.character ≤ e ∧ b ≤ rg.stop.character

/-- The position behind a word. -/
def behind (t : Token) : Pos := ⟨t.l, t.e⟩

/-- A session, and the edits the server asks the client to make in document `u`, which holds the text
`t`, when command `c` is executed. -/
structure Executed (h : Host) (ms : List (Choice × Msg)) (u t : Bytes) (c : Command) (es : List TextEdit) : Prop where
  running : Running h ms
  open_ : Holds (ms.map (·.2)) u t
  up : ¬ ∃ y ∈ ms, IsShutdown y.2
  request : ∃ ch id n label, (run h (ms ++ [(ch, ⟨false, id, .executeCommand (.given (some [c]))⟩)])).sent =
    (run h ms).sent ++ [.applyEdit n label u es]

/-- How the server names the change that a command makes. -/
def commandLabel : Command → Bytes
  | .versionUpdate _ _ => b!"Update version"
  | .valueReplace _ _ _ => b!"Replace with named value"
  | .lineRemove _ _ => b!"Remove line"
  | .labelRemove _ n => b!"Remove label: " ++ n
  | .labelCreate _ n => b!"Create label: " ++ n

end Teal.Lsp.Spec
