import Verif.Model.Op

/-!
# Specification: where control can go in a program

Control flow as the AVM defines it, on the positions of a listing.  Data is abstracted away:
a conditional branch may go either way.  A configuration is a position and the return
addresses of the subroutine calls in progress.
-/

namespace Teal.Spec

/-- Instruction `o` sits at position `i`. -/
def At (l : List Op) (i : Nat) (o : Op) : Prop := l[i]? = some o

/-- Some label `n` is defined at position `i`. -/
def DefinedAt (l : List Op) (n : Bytes) (i : Nat) : Prop := At l i (.label n)

/-- The instruction refers to the label `n`. -/
inductive Refers : Op → Bytes → Prop
  | branch (k n) : Refers (.branch k n) n
  | switch (ns n) : n ∈ ns → Refers (.switch ns) n
  | match_ (ns n) : n ∈ ns → Refers (.match_ ns) n

/-- `err` and `return`: the program ends here. -/
inductive Halts : Op → Prop
  | err : Halts (.plain .err)
  | ret : Halts (.plain .returnOp)

/-- Instructions that never continue with the next one. -/
inductive NoFallThrough : Op → Prop
  | halts (o) : Halts o → NoFallThrough o
  | b (n) : NoFallThrough (.branch .b n)
  | callsub (n) : NoFallThrough (.branch .callsub n)
  | retsub : NoFallThrough (.plain .retsub)

/-- One step of control. -/
inductive Step (l : List Op) : Nat × List Nat → Nat × List Nat → Prop
  /-- go on with the next instruction -/
  | next {i o rs} : At l i o → ¬ NoFallThrough o → Step l (i, rs) (i + 1, rs)
  /-- a branch taken -/
  | jump {i o n j rs} : At l i o → Refers o n → o ≠ .branch .callsub n → DefinedAt l n j →
      Step l (i, rs) (j, rs)
  /-- a call -/
  | call {i n j rs} : At l i (.branch .callsub n) → DefinedAt l n j →
      Step l (i, rs) (j, (i + 1) :: rs)
  /-- a return -/
  | ret {i r rs} : At l i (.plain .retsub) → Step l (i, r :: rs) (r, rs)

/-- Any number of steps. -/
inductive Steps (l : List Op) : Nat × List Nat → Nat × List Nat → Prop
  | refl (c) : Steps l c c
  | tail {a b c} : Steps l a b → Step l b c → Steps l a c

/-- Lines that do nothing: empty lines, labels, pragmas, comments. -/
inductive NoOp : Op → Prop
  | empty : NoOp .empty
  | label (n) : NoOp (.label n)
  | pragma (v) : NoOp (.pragma v)
  | comment (t) : NoOp (.comment t)

/-- The places `j … i` of a program from which control can leave them, or end the program. -/
inductive Exit (l : List Op) (j i k : Nat) : Prop
  | ends (p : Op) : At l k p → Halts p → Exit l j i k
  | returns : At l k (.plain .retsub) → Exit l j i k
  | leaves (rs : List Nat) (c : Nat × List Nat) : Step l (k, rs) c → ¬ (j ≤ c.1 ∧ c.1 ≤ i) → Exit l j i k

end Teal.Spec
