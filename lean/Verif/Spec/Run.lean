import Verif.Spec.Real
import Verif.Spec.Cost

/-!
# Specification: real runs of a program

Where control goes in a real run, what the run costs, and for which steps the debugger's machine is
known to do something else.
-/

namespace Teal.Spec

/-- What the instruction `o` costs in the state `r`. -/
def charge (version : Nat) (o : Op) (r : Real) : Nat :=
  match fixedCost version o with
  | some n => n
  | none =>
    match lengthCost o with
    | some (d, f) =>
      match r.stack[d]? with
      | some (.bytes b) => f b.length
      | _ => 1
    | none => 1

/-- `RunsTo fn l version P tr c n r`: running the program `l` can execute the instructions `tr` at the
cost `n`, and then be in the state `r` at the place `c` (a position and the return addresses of the
calls in progress; `none`: the program has ended).  Each step, from a place and a state by an
instruction to a place, is one that satisfies `P`. -/
inductive RunsTo (fn : Functions) (l : List Op) (version : Nat)
    (P : Nat × List Nat → Real → Op → Option (Nat × List Nat) → Prop) : List Op → Option (Nat × List Nat) → Nat → Real → Prop
  | start : RunsTo fn l version P [] (some (0, [])) 0 Real.start
  /-- labels and comments are passed over -/
  | skip {tr : List Op} {i : Nat} {rs : List Nat} {n : Nat} {r : Real} {o : Op} : RunsTo fn l version P tr (some (i, rs)) n r →
      At l i o → NoOp o → RunsTo fn l version P tr (some (i + 1, rs)) n r
  /-- an instruction, and one of the places where control can go from there -/
  | exec {tr : List Op} {i : Nat} {rs : List Nat} {n : Nat} {r r' : Real} {o : Op} {c : Nat × List Nat} :
      RunsTo fn l version P tr (some (i, rs)) n r → At l i o → ¬ NoOp o → Does fn o r r' → Step l (i, rs) c →
      P (i, rs) r o (some c) → RunsTo fn l version P (tr ++ [o]) (some c) (n + charge version o r) r'
  /-- an instruction that ends the program -/
  | halt {tr : List Op} {i : Nat} {rs : List Nat} {n : Nat} {r r' : Real} {o : Op} :
      RunsTo fn l version P tr (some (i, rs)) n r → At l i o → Halts o → Does fn o r r' →
      P (i, rs) r o none → RunsTo fn l version P (tr ++ [o]) none (n + charge version o r) r'

/-- Instructions that access the frame of a subroutine. -/
inductive OnFrame : Op → Prop
  | proto (a n : Nat) : OnFrame (.u8u8 .proto a n)
  | access (k : I8Op) (i : Int) : OnFrame (.i8 k i)

/-- Where the debugger's machine is known not to do what the reference says, in the state `r` of a
real run: the instructions it ignores, those for which it expects other operands (`bitlen`, `getbit`,
`setbit`, `app_opted_in`), `stores` and `json_ref`, `dup2`, `dupn 255`, `bury` unless the slot is in the
middle of the stack, `dig` on a high stack, accesses to high frames, and returns that leave more than
the results. -/
inductive Strange (r : Real) : Op → Prop
  | ignored {o : Op} : Ignored o → Strange r o
  | bitlen : Strange r (.plain .bitlen)
  | getbit : Strange r (.plain .getbit)
  | setbit : Strange r (.plain .setbit)
  | appOptedIn : Strange r (.plain .appOptedIn)
  | stores : Strange r (.plain .stores)
  | jsonRef (f : Nat) : Strange r (.field .jsonRef f)
  | dup2 : Strange r (.plain .dup2)
  | dupn (n : Nat) : 255 ≤ n → Strange r (.u8 .dupn n)
  | bury (n : Nat) : r.stack.length ≠ 2 * n + 1 → Strange r (.u8 .bury n)
  | dig (n : Nat) : 256 < r.stack.length → Strange r (.u8 .dig n)
  | frame (k : I8Op) (i : Int) {c : Activation} {cs : List Activation} : r.calls = c :: cs → 256 ≤ (c.height : Int) + i →
      Strange r (.i8 k i)
  | leftOver {h a n : Nat} {cs : List Activation} : r.calls = ⟨h, some (a, n)⟩ :: cs → r.stack.length ≠ h + n →
      Strange r (.plain .retsub)

/-- Steps the debugger's machine can follow: not the strange ones, and no jump of a conditional branch
inside a subroutine (the branch it creates does not know where to return to). -/
def Followable (c : Nat × List Nat) (r : Real) (o : Op) (c' : Option (Nat × List Nat)) : Prop :=
  ¬ Strange r o ∧ ∀ ts, Forks o ts → c' = some (c.1 + 1, c.2) ∨ c.2 = []

end Teal.Spec
