import Verif.Spec.Stack
import Verif.Spec.Frames

/-!
# Specification: what happens when a program really runs

A real run has real values, where the debugger's machine only has types and what it knows about a
value.  The rules are those of the AVM's opcode reference, as far as the stack, the scratch space and
the subroutine calls are concerned: constants, the scratch space, the stack manipulation and the
subroutine opcodes are exact; of hashes and signature checks only that they are functions of their
operands is used; all others may leave any values of the types in the table.  Which way a branch goes
is left open: the rules hold for every way.
-/

namespace Teal.Spec

/-- A value of a real run. -/
inductive Val where
  | uint (n : Nat)
  | bytes (b : Bytes)
deriving DecidableEq, Repr

/-- The functions behind some opcodes.  Operands come in the order in which they are popped; the
selector of a method is a hash of its signature.  Nothing is assumed about them. -/
structure Functions where
  selector : Bytes → Bytes
  sha256 : Bytes → Bytes
  ed25519verify : Bytes → Bytes → Bytes → Nat
  ecdsaVerify : Nat → Bytes → Bytes → Bytes → Bytes → Bytes → Nat

/-- `x` is a value of type `t`. -/
def OfType : StackType → Val → Prop
  | .any, _ => True
  | .uint64, x => ∃ n, x = .uint n
  | .bytes, x => ∃ b, x = .bytes b
  | .none, _ => False

/-- The values `xs` (the top first) have the types `ts` (the top last). -/
def OfTypes (ts : List StackType) (xs : List Val) : Prop :=
  xs.length = ts.length ∧ ∀ (i : Nat) (t : StackType) (x : Val), ts.reverse[i]? = some t → xs[i]? = some x → OfType t x

/-- A subroutine call: the height of the stack when it was made, and what `proto` said. -/
structure Activation where
  height : Nat
  proto : Option (Nat × Nat)
deriving DecidableEq, Repr

/-- The state of a real run, without the place in the program.  The top of the stack and the
innermost call come first. -/
structure Real where
  stack : List Val
  scratch : Nat → Val
  calls : List Activation

/-- The state at the beginning: all scratch slots hold zero. -/
def Real.start : Real := { stack := [], scratch := fun _ => .uint 0, calls := [] }

/-- The constants an instruction leaves, the top first. -/
inductive Constants (fn : Functions) : Op → List Val → Prop
  | int (n : Nat) : Constants fn (.int n) [.uint n]
  | pushint (n : Nat) : Constants fn (.pushint n) [.uint n]
  | pushints (ns : List Nat) : Constants fn (.pushints ns) (ns.reverse.map .uint)
  | byte (b : Bytes) : Constants fn (.byte b) [.bytes b]
  | pushbytes (b : Bytes) : Constants fn (.pushbytes b) [.bytes b]
  | pushbytess (bs : List Bytes) : Constants fn (.pushbytess bs) (bs.reverse.map .bytes)
  | method (s : Bytes) : Constants fn (.method s) [.bytes (fn.selector s)]

/-- Instructions with a rule of their own; for the others there is the table. -/
def OwnRule : Op → Prop
  | .int _ | .pushint _ | .pushints _ | .byte _ | .pushbytes _ | .pushbytess _ | .method _ => True
  | .u8 .load _ | .u8 .store _ | .plain .loads | .plain .stores => True
  | .plain .swap | .plain .dup | .plain .dup2 | .u8 .dig _ | .u8 .cover _ | .u8 .uncover _ | .u8 .bury _
  | .u8 .popn _ | .u8 .dupn _ => True
  | .plain .sha256 | .plain .ed25519verify | .field .ecdsaVerify _ => True
  | .branch .callsub _ | .u8u8 .proto _ _ | .plain .retsub | .i8 _ _ => True
  | _ => False

/-- `Does fn o r r'`: executing `o` can turn `r` into `r'`. -/
inductive Does (fn : Functions) : Op → Real → Real → Prop
  | constants {o : Op} {xs : List Val} {r : Real} : Constants fn o xs → Does fn o r { r with stack := xs ++ r.stack }
  | load (n : Nat) {r : Real} : Does fn (.u8 .load n) r { r with stack := r.scratch n :: r.stack }
  | store (n : Nat) {r : Real} {x : Val} {s : List Val} : r.stack = x :: s →
      Does fn (.u8 .store n) r { r with stack := s, scratch := fun i => if i = n then x else r.scratch i }
  | loads {r : Real} {n : Nat} {s : List Val} : r.stack = .uint n :: s → n < 256 →
      Does fn (.plain .loads) r { r with stack := r.scratch n :: s }
  | stores {r : Real} {n : Nat} {x : Val} {s : List Val} : r.stack = x :: .uint n :: s → n < 256 →
      Does fn (.plain .stores) r { r with stack := s, scratch := fun i => if i = n then x else r.scratch i }
  | rearranges {o : Op} {r : Real} {s : List Val} : Rearranges o r.stack s → Does fn o r { r with stack := s }
  | sha256 {r : Real} {a : Bytes} {s : List Val} : r.stack = .bytes a :: s →
      Does fn (.plain .sha256) r { r with stack := .bytes (fn.sha256 a) :: s }
  | ed25519verify {r : Real} {a b c : Bytes} {s : List Val} : r.stack = .bytes a :: .bytes b :: .bytes c :: s →
      Does fn (.plain .ed25519verify) r { r with stack := .uint (fn.ed25519verify a b c) :: s }
  | ecdsaVerify (f : Nat) {r : Real} {a b c d e : Bytes} {s : List Val} :
      r.stack = .bytes a :: .bytes b :: .bytes c :: .bytes d :: .bytes e :: s →
      Does fn (.field .ecdsaVerify f) r { r with stack := .uint (fn.ecdsaVerify f a b c d e) :: s }
  | callsub (t : Bytes) {r : Real} : Does fn (.branch .callsub t) r { r with calls := ⟨r.stack.length, none⟩ :: r.calls }
  | proto (a n : Nat) {r : Real} {h : Nat} {cs : List Activation} : r.calls = ⟨h, none⟩ :: cs → a ≤ h →
      Does fn (.u8u8 .proto a n) r { r with calls := ⟨h, some (a, n)⟩ :: cs }
  | frame {o : Op} {r : Real} {c : Activation} {cs : List Activation} {s : List Val} : r.calls = c :: cs → FrameAccess c.height o r.stack s →
      Does fn o r { r with stack := s }
  /-- without `proto`, `retsub` leaves the stack as it is -/
  | retsub {r : Real} {h : Nat} {cs : List Activation} : r.calls = ⟨h, none⟩ :: cs → Does fn (.plain .retsub) r { r with calls := cs }
  /-- with `proto`, at least the results must be above the frame -/
  | retsubProto {r : Real} {h a n : Nat} {cs : List Activation} : r.calls = ⟨h, some (a, n)⟩ :: cs → h + n ≤ r.stack.length →
      Does fn (.plain .retsub) r { r with stack := afterReturn h a n r.stack, calls := cs }
  | table {o : Op} {args rets : List StackType} {r : Real} {xs ys s : List Val} : effect o = some (args, rets) → ¬ OwnRule o →
      r.stack = xs ++ s → OfTypes args xs → OfTypes rets ys → Does fn o r { r with stack := ys ++ s }

/-- Executing some instructions one after the other. -/
inductive DoesAll (fn : Functions) : List Op → Real → Real → Prop
  | nil (r : Real) : DoesAll fn [] r r
  | snoc {os : List Op} {o : Op} {r r' r'' : Real} : DoesAll fn os r r' → Does fn o r' r'' → DoesAll fn (os ++ [o]) r r''

/-- What the debugger's machine says about the type of a value is true of `x`.  `none` is the type of
a scratch slot nothing has been stored in. -/
def TypeHolds : StackType → Val → Prop
  | .none, x => x = .uint 0
  | t, x => OfType t x

/-- What the debugger's machine says about the source of a value is true of `x`: a constant is that
constant, the result of a call is that result for some operands of which what it says is true, and of
a loaded value is true what it says of the value in the slot. -/
def SourceHolds (fn : Functions) : VmSrc → Val → Prop
  | .none, _ => True
  | .uint n, x => x = .uint n
  | .bytes b, x => x = .bytes b
  | .sig s, x => x = .bytes (fn.selector s)
  | .sha256 t s, x => ∃ a, TypeHolds t (.bytes a) ∧ SourceHolds fn s (.bytes a) ∧ x = .bytes (fn.sha256 a)
  | .ed25519verify t1 s1 t2 s2 t3 s3, x => ∃ a b c, TypeHolds t1 (.bytes a) ∧ SourceHolds fn s1 (.bytes a) ∧
      TypeHolds t2 (.bytes b) ∧ SourceHolds fn s2 (.bytes b) ∧ TypeHolds t3 (.bytes c) ∧ SourceHolds fn s3 (.bytes c) ∧
      x = .uint (fn.ed25519verify a b c)
  | .ecdsaVerify t1 s1 t2 s2 t3 s3 t4 s4 t5 s5, x => ∃ f a b c d e, TypeHolds t1 (.bytes a) ∧ SourceHolds fn s1 (.bytes a) ∧
      TypeHolds t2 (.bytes b) ∧ SourceHolds fn s2 (.bytes b) ∧ TypeHolds t3 (.bytes c) ∧ SourceHolds fn s3 (.bytes c) ∧
      TypeHolds t4 (.bytes d) ∧ SourceHolds fn s4 (.bytes d) ∧ TypeHolds t5 (.bytes e) ∧ SourceHolds fn s5 (.bytes e) ∧
      x = .uint (fn.ecdsaVerify f a b c d e)
  | .val t s, x => TypeHolds t x ∧ SourceHolds fn s x

/-- What the debugger's machine says about a value is true of `x`. -/
def Holds (fn : Functions) (v : VmValue) (x : Val) : Prop := TypeHolds v.t x ∧ SourceHolds fn v.src x

/-- What the debugger's machine says about the stack is true of `xs`. -/
def StackHolds (fn : Functions) (vs : List VmValue) (xs : List Val) : Prop :=
  vs.length = xs.length ∧ ∀ (i : Nat) (v : VmValue) (x : Val), vs[i]? = some v → xs[i]? = some x → Holds fn v x

/-- What it says about the scratch space is true. -/
def ScratchHolds (fn : Functions) (vs : List VmValue) (f : Nat → Val) : Prop :=
  ∀ (i : Nat) (v : VmValue), vs[i]? = some v → Holds fn v (f i)

/-- Instructions that leave other things than they should: the machine does not execute `b-`, `b|`
and `extract_uint64`; `addr` and `itxna` leave nothing and `pushints` leaves byte strings. -/
inductive Ignored : Op → Prop
  | bminus : Ignored (.plain .bminus)
  | bbitOr : Ignored (.plain .bbitOr)
  | extractUint64 : Ignored (.plain .extractUint64)
  | addr (a : Bytes) : Ignored (.addr a)
  | itxna (f i : Nat) : Ignored (.fieldIdx .itxna f i)
  | pushints (ns : List Nat) : Ignored (.pushints ns)

/-- Where the debugger's machine is known not to follow the reference, in a state with the stack
`s` and the frames `fs` while the real run is in the state `r`: the instructions above, `dup2`, `bury`
unless the slot is in the middle of the stack, `dig` on a high stack, accesses to high frames,
returns from frames that got lost when the branch was created and returns that leave more than the
results, and `stores` to a slot the machine does not know. -/
inductive Differs (s : List VmValue) (fs : List VmFrame) (r : Real) : Op → Prop
  | ignored {o : Op} : Ignored o → Differs s fs r o
  | dup2 : Differs s fs r (.plain .dup2)
  | bury (n : Nat) : s.length ≠ 2 * n + 1 → Differs s fs r (.u8 .bury n)
  | dig (n : Nat) : 256 < s.length → Differs s fs r (.u8 .dig n)
  | frame (k : I8Op) (i : Int) {c : Activation} {cs : List Activation} : r.calls = c :: cs → 256 ≤ (c.height : Int) + i →
      Differs s fs r (.i8 k i)
  | lost : fs = [] → Differs s fs r (.plain .retsub)
  | leftOver {h a n : Nat} {cs : List Activation} : r.calls = ⟨h, some (a, n)⟩ :: cs → r.stack.length ≠ h + n →
      Differs s fs r (.plain .retsub)
  | stores {v i : VmValue} {s' : List VmValue} : s = v :: i :: s' → (∀ n, i.src ≠ .uint n) → Differs s fs r (.plain .stores)

/-- Instructions that write to the scratch space. -/
inductive Saves : Op → Prop
  | store (n : Nat) : Saves (.u8 .store n)
  | stores : Saves (.plain .stores)

/-- The step from `v` to `w` executed `o` on the branch `k`. -/
def Executed (v w : Vm) (k : Nat) (o : Op) : Prop :=
  ∃ b b', v.branches[k]? = some b ∧ w.branches[k]? = some b' ∧ b'.trace = b.trace ++ [o]

/-- `Follows fn l version v k r`: in a session that has led to the state `v`, a real run, now in the
state `r`, has followed the branch `k`: whenever a step executed an instruction on the branch, the real
run executed it as well, and when the branch was created by another one, it had followed that one
before.  Other branches may have been executed in between, but have not written to the scratch space;
and the instructions were none for which the machine is known not to follow the reference. -/
inductive Follows (fn : Functions) (l : List Op) (version : Nat) : Vm → Nat → Real → Prop
  | new : Follows fn l version (Vm.new l version) 0 Real.start
  | step {v w : Vm} {k : Nat} {r r' : Real} {b : VmBranch} {o : Op} : Follows fn l version v k r → v.branches[k]? = some b →
      v.step = some w → w.error = none → Executed v w k o → ¬ Differs b.stack b.frames r o → Does fn o r r' →
      Follows fn l version w k r'
  | fork {v w : Vm} {k k' : Nat} {r r' : Real} {b : VmBranch} {o : Op} : Follows fn l version v k r → v.branches[k]? = some b →
      v.step = some w → w.error = none → Executed v w k o → ¬ Differs b.stack b.frames r o → Does fn o r r' →
      v.branches.length ≤ k' → k' < w.branches.length → Follows fn l version w k' r'
  | other {v w : Vm} {k : Nat} {r : Real} : Follows fn l version v k r → v.step = some w → w.error = none →
      (∀ o, ¬ Executed v w k o) → (∀ j o, Executed v w j o → ¬ Saves o) → Follows fn l version w k r
  | switch {v : Vm} {k : Nat} {r : Real} (id : Nat) : Follows fn l version v k r → Follows fn l version (v.switch id) k r
  | breakpoints {v w : Vm} {k : Nat} {r : Real} (lns : List Int) : Follows fn l version v k r → v.setBreakpoints lns = some w →
      Follows fn l version w k r

end Teal.Spec
