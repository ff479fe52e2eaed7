import Verif.Spec.Cost

/-!
# Specification: what the debugger charges for an instruction
-/

namespace Teal.Spec

/-- The length the debugger knows of a value: that of a constant, 4 for a method selector, 0 for a number. -/
inductive KnownLength : VmSrc → Nat → Prop
  | const (b : Bytes) : KnownLength (.bytes b) b.length
  | selector (s : Bytes) : KnownLength (.sig s) 4
  | number (n : Nat) : KnownLength (.uint n) 0
  /-- loaded from scratch space -/
  | loaded (t : StackType) (s : VmSrc) (n : Nat) : KnownLength s n → KnownLength (.val t s) n

/-- The instructions whose price depends on the length of a value: that on the top of the stack, also for `json_ref`
(where it is the key, not the object), and every begun unit of seven bytes costs two, the whole ones pro rata. -/
def chargeByLength : Op → Option (Nat → Nat)
  | .field .base64Decode _ => some fun n => 1 + ceilDiv n 16
  | .field .jsonRef _ => some fun n => 25 + 2 * n / 7 + if 7 ∣ n then 0 else 2
  | _ => none

/-- `c` is what the debugger charges for the instruction `o` on this stack. -/
inductive Charge (version : Nat) (o : Op) (stack : List VmValue) : Int → Prop
  | fixed (n : Nat) : fixedCost version o = some n → Charge version o stack n
  | one : fixedCost version o = none → chargeByLength o = none → Charge version o stack 1
  | known (f : Nat → Nat) (n : Nat) (v : VmValue) : chargeByLength o = some f → stack.head? = some v →
      KnownLength v.src n → Charge version o stack (f n)
  | unknown (f : Nat → Nat) (v : VmValue) : chargeByLength o = some f → stack.head? = some v →
      (¬ ∃ n, KnownLength v.src n) → Charge version o stack 1

end Teal.Spec
