import Verif.Spec.Tools
import Verif.Model.Scan
import Mathlib.Data.List.Forall2

/-!
# What the experiments print
-/

namespace Teal.CliSpec

open Teal Teal.Spec Teal.Cli

/-- A line about a diagnostic of a program: the round of the block, the number of the transaction in it, the line, and the message,
which is a parameter if it is about an operand. -/
def FindingLine (operand : Diag → Bytes) (round i : Nat) (d : Diag) (s : Bytes) : Prop :=
  ∃ a b l m, DecimalOf round a ∧ DecimalOf i b ∧ DecimalOf d.l l ∧ (Tells d.kind m ∨ (OfOperand d.kind ∧ m = operand d)) ∧
    s = a ++ 58 :: b ++ 58 :: l ++ 58 :: 32 :: m ++ [10]

/-- The transaction creates or changes an application. -/
def Deploys (tx : Txn) (p : Bytes) : Prop := tx.type = b!"appl" ∧ tx.approval = some p

/-- What is printed about the transaction with number `i` of a block. -/
inductive Told (env : Env) (operand : Diag → Bytes) (node : Node) (round i : Nat) (tx : Txn) : Bytes → Prop
  /-- nothing, if there is no program -/
  | other : (¬ ∃ p, Deploys tx p) → Told env operand node round i tx []
  /-- that the node cannot disassemble it -/
  | failed {p e n : Bytes} : Deploys tx p → node.disassemble p = .error e → DecimalOf p.length n →
      Told env operand node round i tx (b!"Program length: " ++ n ++ b!"\nFailed to process app - err: failed to disassemble: " ++ e ++ b!"\n")
  /-- its length and what is found in it -/
  | found {p src n : Bytes} {r : ProcessResult} {lines : List Bytes} : Deploys tx p → node.disassemble p = .ok src → DecimalOf p.length n →
      process env src = some r → List.Forall₂ (FindingLine operand round i) r.diagnostics lines →
      Told env operand node round i tx (b!"Program length: " ++ n ++ b!"\n" ++ lines.flatten)

/-- What is printed about a block: its number and the time, and then something about each transaction. -/
def BlockTold (env : Env) (operand : Diag → Bytes) (node : Node) (b : Block) (s : Bytes) : Prop :=
  ∃ (n : Bytes) (ss : List Bytes), DecimalOf b.round n ∧ ss.length = b.payset.length ∧
    (∀ i tx t, b.payset[i]? = some tx → ss[i]? = some t → Told env operand node b.round i tx t) ∧
    s = b!"Block: " ++ n ++ b!" at " ++ node.now b.round ++ b!"\n" ++ ss.flatten

/-- The member is made by the compiler. -/
def Made (m : Member) : Prop := m = .global b!"init$guard" ∨ m = .function b!"init"

/-- The member is something to translate: a function or a variable of the file. -/
def Ported (m : Member) : Prop := ¬ Made m ∧ ((∃ n, m = .global n) ∨ ∃ n, m = .function n)

/-- The lines about the types among the members. -/
def typeLines (ms : List Member) : List Bytes :=
  ms.filterMap fun
    | .type n => some (b!"type " ++ n ++ b!"\n")
    | _ => none

end Teal.CliSpec
