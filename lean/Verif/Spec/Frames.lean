import Verif.Spec.Vm

/-!
# Specification: subroutine frames

From the AVM's opcode reference: `callsub` notes the height of the stack; `frame_dig i` and
`frame_bury i` count stack slots from that height; `retsub`, in a subroutine that began with
`proto A R`, moves the top `R` values down over the arguments and drops everything in between.
Stacks are listed with the top first.
-/

namespace Teal.Spec

/-- `o` accesses the frame of a subroutine that was called on a stack of height `h`. -/
inductive FrameAccess {α : Type} (h : Nat) : Op → List α → List α → Prop
  | dig (i : Int) (slot : Nat) (x : α) (s : List α) : (slot : Int) = h + i → s.reverse[slot]? = some x →
      FrameAccess h (.i8 .frameDig i) s (x :: s)
  | bury (i : Int) (slot : Nat) (a : α) (s : List α) : (slot : Int) = h + i → slot < s.length →
      FrameAccess h (.i8 .frameBury i) (a :: s) (s.reverse.set slot a).reverse

/-- Sequences of instructions in which calls and returns match, and that have no `proto` of their
own outside those calls. -/
inductive NoProto : List Op → Prop
  | nil : NoProto []
  | op (o : Op) (s : List Op) : (∀ t, o ≠ .branch .callsub t) → o ≠ .plain .retsub → (∀ a r, o ≠ .u8u8 .proto a r) →
      NoProto s → NoProto (o :: s)
  | call (t : Bytes) (a s : List Op) : Balanced a → NoProto s →
      NoProto (.branch .callsub t :: (a ++ .plain .retsub :: s))

/-- What `retsub` leaves, of a stack `s`, in a subroutine with `a` arguments and `r` results that
was called on a stack of height `h`. -/
def afterReturn {α : Type} (h a r : Nat) (s : List α) : List α :=
  s.take r ++ s.drop (s.length - (h - a))

end Teal.Spec
