import Verif.Model.Build
import Verif.Spec.Print

/-!
# Specification: programs built in Go
-/

namespace Teal.Spec
open Teal.Build

/-- The calls with which a program is built; labels and functions are given by their names. -/
inductive Call where
  /-- an instruction value of the package: a variable such as `teal.Err`, a struct such as
  `&teal.PragmaExpr{Version: 8}` -/
  | instr (o : Op)
  | load (index : Nat)
  | store (index : Nat)
  | gtxns (f : Nat)
  | proto (args results : Nat)
  | b (l : Bytes)
  | bz (l : Bytes)
  | bnz (l : Bytes)
  | callSub (l : Bytes)
  | label (name : Bytes)
  | match_ (ls : List Bytes)
  | switch (ls : List Bytes)
  | txn (f : Nat)
  | txna (f i : Nat)
  | itxnField (f : Nat)
  | global (f : Nat)
  | int (v : Nat)
  | frameDig (index : Int)
  | arg (index : Nat)
  | stringBytes (v : Bytes)
  | comment (text : Bytes)
  | cover (depth : Nat)
  /-- `[]teal.Expr{...}` -/
  | list (cs : List Call)
  /-- `teal.Program{...}` inside another one -/
  | program (cs : List Call)
  | block (cs : List Call)
  | plus (x y : Call)
  | minus (x y : Call)
  | assertEq (x y : Call)
  | assertLtEq (x y : Call)
  | assertLen (x : Call) (len : Nat)
  | assertInRange (x : Call) (lo hi : Nat)
  | itxn (cs : List Call)
  | matchLabels (index : Call) (ls : List Bytes)
  /-- `&teal.FuncExpr{...}` -/
  | func (label : Bytes) (args results : Nat) (body : List Call)
  /-- `f.Call(...)` for a function -/
  | call (label : Bytes) (args : List Call)

mutual
/-- The value a call returns. -/
def Call.code : Call → Code
  | .instr o => .op o
  | .load n => Build.load n
  | .store n => Build.store n
  | .gtxns f => Build.gtxns f
  | .proto a r => Build.proto a r
  | .b l => Build.b l
  | .bz l => Build.bz l
  | .bnz l => Build.bnz l
  | .callSub l => Build.callSub l
  | .label n => Build.label n
  | .match_ ls => Build.match_ ls
  | .switch ls => Build.switch ls
  | .txn f => Build.txn f
  | .txna f i => Build.txna f i
  | .itxnField f => Build.itxnField f
  | .global f => Build.global f
  | .int v => Build.int v
  | .frameDig i => Build.frameDig i
  | .arg i => Build.arg i
  | .stringBytes v => Build.stringBytes v
  | .comment t => Build.comment t
  | .cover n => Build.cover n
  | .list cs => .list (codes cs)
  | .program cs => .program (codes cs)
  | .block cs => Build.block (codes cs)
  | .plus x y => Build.plus x.code y.code
  | .minus x y => Build.minus x.code y.code
  | .assertEq x y => Build.assertEq x.code y.code
  | .assertLtEq x y => Build.assertLtEq x.code y.code
  | .assertLen x n => Build.assertLen x.code n
  | .assertInRange x lo hi => Build.assertInRange x.code lo hi
  | .itxn cs => Build.itxn (codes cs)
  | .matchLabels x ls => Build.matchLabels x.code ls
  | .func l a r cs => .func l a r (codes cs)
  | .call l cs => Build.call l (codes cs)
def codes : List Call → List Code
  | [] => []
  | c :: cs => c.code :: codes cs
end

/-- A line of the program that is meant. -/
inductive Line where
  | instr (o : Op)
  /-- a byte constant, as a string -/
  | string (v : Bytes)
  | comment (text : Bytes)
  | blank

/-- What the line is read to. -/
def Line.op : Line → Op
  | .instr o => o
  | .string v => .byte v
  | .comment _ => .empty
  | .blank => .empty

mutual
/-- The lines that a call stands for. -/
def Call.lines : Call → List Line
  | .instr (.comment t) => [.comment t]
  | .instr .empty => [.blank]
  | .instr o => [.instr o]
  | .load n => [.instr (.u8 .load n)]
  | .store n => [.instr (.u8 .store n)]
  | .gtxns f => [.instr (.field .gtxns f)]
  | .proto a r => [.instr (.u8u8 .proto a r)]
  | .b l => [.instr (.branch .b l)]
  | .bz l => [.instr (.branch .bz l)]
  | .bnz l => [.instr (.branch .bnz l)]
  | .callSub l => [.instr (.branch .callsub l)]
  | .label n => [.instr (.label n)]
  | .match_ ls => [.instr (.match_ ls)]
  | .switch ls => [.instr (.switch ls)]
  | .txn f => [.instr (.field .txn f)]
  | .txna f i => [.instr (.fieldIdx .txna f i)]
  | .itxnField f => [.instr (.field .itxnField f)]
  | .global f => [.instr (.field .globalOp f)]
  | .int v => [.instr (.int v)]
  | .frameDig i => [.instr (.i8 .frameDig i)]
  -- `txna ApplicationArgs`
  | .arg i => [.instr (.fieldIdx .txna 26 i)]
  | .stringBytes v => [.string v]
  | .comment t => [.comment t]
  | .cover n => [.instr (.u8 .cover n)]
  | .list cs => linesAll cs
  | .program cs => linesAll cs ++ [.blank]
  | .block cs => linesAll cs
  | .plus x y => x.lines ++ y.lines ++ [.instr (.plain .plus)]
  | .minus x y => x.lines ++ y.lines ++ [.instr (.plain .minus)]
  | .assertEq x y => x.lines ++ y.lines ++ [.instr (.plain .eq), .instr (.plain .assert)]
  | .assertLtEq x y => x.lines ++ y.lines ++ [.instr (.plain .le), .instr (.plain .assert)]
  | .assertLen x n => x.lines ++ [.instr (.plain .len), .instr (.int n), .instr (.plain .eq), .instr (.plain .assert)]
  | .assertInRange x lo hi =>
    x.lines ++ [.instr (.int lo), .instr (.plain .ge)] ++ x.lines ++
      [.instr (.int hi), .instr (.plain .lt), .instr (.plain .and), .instr (.plain .assert)]
  | .itxn cs => .instr (.plain .itxnBegin) :: (linesAll cs ++ [.instr (.plain .itxnSubmit)])
  | .matchLabels x ls => ls.map .string ++ x.lines ++ [.instr (.match_ ls)]
  | .func l a r cs => .instr (.label l) :: .instr (.u8u8 .proto a r) :: linesAll cs
  | .call l cs => linesAll cs ++ [.instr (.branch .callsub l)]
def linesAll : List Call → List Line
  | [] => []
  | c :: cs => c.lines ++ linesAll cs
end

/-- The version in force after some lines: the one of the last `#pragma version`, or else 1. -/
def versionAfter (ls : List Line) : Nat :=
  ls.foldl (fun v l => match l with | .instr (.pragma n) => n | _ => v) 1

/-- A line that can be written, in a program of version `ver`: operands are in the range of their
types, labels are words, strings have no quotes and no backslashes, and comments are on one line. -/
def Line.Ok (addrOk : Bytes → Bool) (ver : Nat) : Line → Prop
  | .instr (.pragma v) => 1 ≤ v ∧ v < 256
  | .instr o => Valid addrOk o ∧ Printable ver o
  | .string v => ∀ x ∈ v, x ≠ 34 ∧ x ≠ 92
  | .comment t => ∀ x ∈ t, ¬ Break x
  | .blank => True

mutual
/-- The value has no block in it: no `Block`, nothing made from one, and no function. -/
def Call.Blockless : Call → Prop
  | .list cs => BlocklessAll cs
  | .program cs => BlocklessAll cs
  | .block _ | .plus _ _ | .minus _ _ | .assertEq _ _ | .assertLtEq _ _ | .assertLen _ _ | .assertInRange _ _ _ | .itxn _
  | .matchLabels _ _ | .func _ _ _ _ | .call _ _ => False
  | _ => True
def BlocklessAll : List Call → Prop
  | [] => True
  | c :: cs => c.Blockless ∧ BlocklessAll cs
end

mutual
/-- There is no call of `Cover`. -/
def Call.NoCover : Call → Prop
  | .cover _ => False
  | .list cs => NoCoverAll cs
  | .program cs => NoCoverAll cs
  | _ => True
def NoCoverAll : List Call → Prop
  | [] => True
  | c :: cs => c.NoCover ∧ NoCoverAll cs
end

end Teal.Spec
