import Verif.Spec.Frames

/-!
# Specification: frames whose slots are counted modulo 256
-/

namespace Teal.Spec

/-- Like `FrameAccess`, with the number of the slot modulo 256. -/
inductive WrappedAccess {α : Type} (h : Nat) : Op → List α → List α → Prop
  | dig (i : Int) (slot : Nat) (x : α) (s : List α) : (slot : Int) = (h + i) % 256 → s.reverse[slot]? = some x →
      WrappedAccess h (.i8 .frameDig i) s (x :: s)
  | bury (i : Int) (slot : Nat) (a : α) (s : List α) : (slot : Int) = (h + i) % 256 → slot < s.length →
      WrappedAccess h (.i8 .frameBury i) (a :: s) (s.reverse.set slot a).reverse

end Teal.Spec
