import Verif.Spec.Frames
import Verif.Spec.Route

/-!
# Specification: what the debugger's machine does with frames

The slot of `frame_dig` and `frame_bury` is counted with eight bits, and `retsub` takes the arguments directly below the
results.
-/

namespace Teal.Spec

open Teal

/-- The slot `i` places above the height `h`, of eight bits. -/
def slotOf (h : Nat) (i : Int) : Nat := (((h : Int) + i) % 256).toNat

/-- The instructions that have to do with frames. -/
inductive OfFrames : Op → Prop
  | dig (i : Int) : OfFrames (.i8 .frameDig i)
  | bury (i : Int) : OfFrames (.i8 .frameBury i)
  | proto (a r : Nat) : OfFrames (.u8u8 .proto a r)
  | ret : OfFrames (.plain .retsub)

/-- What the machine makes of the stack, in a subroutine that was called at height `h` and has declared `a` arguments and
`r` results. -/
inductive Within (h a r : Nat) : Op → List VmValue → List VmValue → Prop
  | dig (i : Int) (x : VmValue) (s : List VmValue) : s.reverse[slotOf h i]? = some x → Within h a r (.i8 .frameDig i) s (x :: s)
  | bury (i : Int) (x : VmValue) (s : List VmValue) : slotOf h i < s.length →
      Within h a r (.i8 .frameBury i) (x :: s) (s.reverse.set (slotOf h i) x).reverse
  | proto (a' r' : Nat) (s : List VmValue) : Within h a r (.u8u8 .proto a' r') s s
  | ret (rs as s : List VmValue) : rs.length = r → as.length = a → Within h a r (.plain .retsub) (rs ++ as ++ s) (rs ++ s)

/-- What the machine makes of the stack outside of subroutines. -/
inductive Outside : Op → List VmValue → List VmValue → Prop
  | ret (s : List VmValue) : Outside (.plain .retsub) s s

/-- What a subroutine has declared by executing `body`, in which calls and returns match: the last `proto` counts. -/
inductive Declared : List Op → Nat → Nat → Prop
  | nothing (body : List Op) : NoProto body → Declared body 0 0
  | proto (pre body : List Op) (a r : Nat) : Balanced pre → NoProto body → Declared (pre ++ .u8u8 .proto a r :: body) a r

end Teal.Spec
