import Verif.Spec.Stack

/-!
# Specification: what the debugger's machine does instead

The instructions with which the machine does something else than the reference says (`WrongOperands`,
`WrongResults` and the exceptions of C43), and what it does.
-/

namespace Teal.Spec

open Teal

/-- What the machine takes from the stack and leaves on it, the top of the stack last. -/
def insteadTakes : Op → Option (List StackType × List StackType)
  -- only byte strings
  | .plain .bitlen => some ([.bytes], [.uint64])
  -- only integers
  | .plain .getbit => some ([.uint64, .uint64], [.uint64])
  | .plain .setbit => some ([.uint64, .uint64, .uint64], [.any])
  -- accounts are numbers
  | .plain .appOptedIn => some ([.uint64, .uint64], [.uint64])
  -- nothing at all
  | .plain .bminus | .plain .bbitOr | .plain .extractUint64 | .addr _ | .fieldIdx .itxna _ _ => some ([], [])
  -- byte strings instead of integers
  | .pushints vs => some ([], List.replicate vs.length .bytes)
  | _ => none

/-- `Instead o s s'`: the machine executes `o` on the stack `s`, and `s'` is what is left; the top of the stack comes
first. -/
inductive Instead : Op → List VmValue → List VmValue → Prop
  | table {o : Op} {args rets : List StackType} {s vs : List VmValue} : insteadTakes o = some (args, rets) → StackFits args s →
      Results rets vs → Instead o s (vs ++ s.drop args.length)
  /-- the copies are swapped, and so are the originals -/
  | dup2 (a b : VmValue) (s : List VmValue) : Instead (.plain .dup2) (b :: a :: s) (a :: b :: a :: b :: s)
  /-- counted from the bottom -/
  | bury (n : Nat) (a x : VmValue) (xs s : List VmValue) : s.length = n → Instead (.u8 .bury n) (a :: (xs ++ x :: s)) (xs ++ a :: s)
  /-- counted from the bottom, with an index of eight bits: `(height - 1 - n) mod 256` -/
  | dig (n : Nat) (x : VmValue) (xs s : List VmValue) : s.length = (xs.length + s.length + 256 - n) % 256 →
      Instead (.u8 .dig n) (xs ++ x :: s) (x :: (xs ++ x :: s))
  /-- a constant must be the number of a slot -/
  | stores (a i : VmValue) (s : List VmValue) : Suits .uint64 i → (∀ n, i.src = .uint n → n < 256) → Instead (.plain .stores) (a :: i :: s) s

/-- The instructions this is about. -/
inductive Peculiar : Op → Prop
  | table {o : Op} {args rets : List StackType} : insteadTakes o = some (args, rets) → Peculiar o
  | dup2 : Peculiar (.plain .dup2)
  | bury (n : Nat) : Peculiar (.u8 .bury n)
  | dig (n : Nat) : n < 256 → Peculiar (.u8 .dig n)
  | stores : Peculiar (.plain .stores)

end Teal.Spec
