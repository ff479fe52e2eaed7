import Verif.Model.Vm

/-!
# Specification: what the AVM charges for an instruction

Numbers from the AVM's opcode documentation (`TEAL_opcodes.md`: "Cost" lines; for the elliptic
curve opcodes the values of the proposal this project implements).  Every opcode without a line
there costs 1.
-/

namespace Teal.Spec

/-- `n` divided by `d`, rounded up. -/
def ceilDiv (n d : Nat) : Nat := (n + d - 1) / d

/-- What is known of the length of a byte string on the debugger's stack. -/
inductive LengthOf : VmSrc → Nat → Prop
  /-- a constant -/
  | const (b : Bytes) : LengthOf (.bytes b) b.length
  /-- a method selector: the first four bytes of a hash -/
  | selector (s : Bytes) : LengthOf (.sig s) 4
  /-- loaded from scratch space -/
  | loaded (t : StackType) (s : VmSrc) (n : Nat) : LengthOf s n → LengthOf (.val t s) n

/-- The cost of the opcodes with a fixed cost other than 1, in a given program version. -/
def fixedCost (version : Nat) : Op → Option Nat
  | .plain .sha256 => some (if version = 1 then 7 else 35)
  | .plain .keccak256 => some (if version = 1 then 26 else 130)
  | .plain .sha512_256 => some (if version = 1 then 9 else 45)
  | .plain .sha3_256 => some 130
  | .plain .ed25519verify => some 1900
  | .plain .ed25519verifyBare => some 1900
  | .plain .divmodw => some 20
  | .plain .expw => some 10
  | .plain .sqrt => some 4
  | .plain .bplus => some 10
  | .plain .bminus => some 10
  | .plain .bdiv => some 20
  | .plain .bmul => some 20
  | .plain .bmod => some 20
  | .plain .bbitOr => some 6
  | .plain .bbitAnd => some 6
  | .plain .bbitXor => some 6
  | .plain .bbitNot => some 4
  | .plain .bsqrt => some 40
  | .field .ecdsaVerify 0 => some 1700
  | .field .ecdsaVerify 1 => some 2500
  | .field .ecdsaPkDecompress 0 => some 650
  | .field .ecdsaPkDecompress 1 => some 2400
  | .field .ecdsaPkRecover _ => some 2000
  | .field .vrfVerify _ => some 5700
  | .field .ecAdd g => some (if g < 2 then 10 else 20)
  | .field .ecScalarMul g => some (if g < 2 then 100 else 200)
  | .field .ecPairingCheck g => some (if g < 2 then 1000 else 2000)
  | .field .ecMultiExp g => some (if g < 2 then 100 else 200)
  | .field .ecSubgroupCheck g => some (if g < 2 then 100 else 200)
  | .field .ecMapTo g => some (if g < 2 then 100 else 200)
  | _ => none

/-- The opcodes with a cost per length of an input, the position of that input on the stack (0 is
the top) and the cost for a length.  `json_ref` takes the object from below the key. -/
def lengthCost : Op → Option (Nat × (Nat → Nat))
  | .field .base64Decode _ => some (0, fun n => 1 + ceilDiv n 16)
  | .field .jsonRef _ => some (1, fun n => 25 + 2 * ceilDiv n 7)
  | _ => none

/-- `c` is a cost of the instruction `o` on this stack: the cost for the length of the input if
that is known, the cost for some length otherwise. -/
inductive Cost (version : Nat) (o : Op) (stack : List VmValue) : Int → Prop
  | fixed (n : Nat) : fixedCost version o = some n → Cost version o stack n
  | one : fixedCost version o = none → lengthCost o = none → Cost version o stack 1
  | length (d : Nat) (f : Nat → Nat) (n : Nat) (v : VmValue) : lengthCost o = some (d, f) →
      stack[d]? = some v → (∀ k, LengthOf v.src k → n = k) → Cost version o stack (f n)

end Teal.Spec
