import Verif.Model.Process
import Verif.Model.Print

/-!
# The debugger's abstract machine (`vm.go` and the `Execute` / `Cost` methods of `expr.go`)

Pointers: Go's `Vm` holds a slice of branch pointers and the pointer `Branch` to one of them.
Here `branch` is an index into `branches` (the slice only ever grows at its end, so indices are
stable).  While an instruction executes, the executing branch and the parts of the machine it can
reach are the fields of a `Mach`, which are written back afterwards.

Lines: `ExitLine` (-1) is `none`.  `find` returns -1 for a missing label, which is the same value.

Panics keep the state at the point of the panic: `Step` recovers and keeps the partial changes.
An infinite loop is the outcome `hang`.
-/

namespace Teal

/-- What implements `vmSource` (vm.go:25-105): a constant, a method signature, the result of an
operation, or another value (`LoadExpr.Execute`, expr.go:1086-1092).  A `vmOpSource` holds the
instruction and its operands, the first popped first; there are three instructions that make one
(expr.go:74-80, 154-164, 190-201), and the operands are values: a type and a source. -/
inductive VmSrc where
  | none
  | uint (v : Nat)
  | sig (s : Bytes)
  | bytes (b : Bytes)
  | sha256 (t : StackType) (s : VmSrc)
  | ed25519verify (t1 : StackType) (s1 : VmSrc) (t2 : StackType) (s2 : VmSrc) (t3 : StackType) (s3 : VmSrc)
  | ecdsaVerify (t1 : StackType) (s1 : VmSrc) (t2 : StackType) (s2 : VmSrc) (t3 : StackType) (s3 : VmSrc)
      (t4 : StackType) (s4 : VmSrc) (t5 : StackType) (s5 : VmSrc)
  | val (t : StackType) (s : VmSrc)
deriving DecidableEq, Repr

/-- `Lengths` of the sources (vm.go:39-46, 52-54, 68-70, 76-78). -/
def VmSrc.lengths : VmSrc → List Nat
  | .none => []
  | .uint _ => [0]
  | .sig _ => [4]
  | .bytes b => [b.length]
  | .val _ s => s.lengths
  -- a `vmOpSource` has no `Lengths`
  | _ => []

/-- `VmDataType.String` (vm.go:126-137). -/
def StackType.vmName : StackType → Bytes
  | .any => b!"any"
  | .uint64 => b!"uint64"
  | .bytes => b!"bytes"
  | .none => b!"(none)"

/-- `VmValue.String` (vm.go:107-113), from the text of the source; a value without a source shows
its type only. -/
def valueText (t : StackType) : Option Bytes → Bytes
  | .none => t.vmName
  | some s => t.vmName ++ b!": " ++ s

/-- `vmOpSource.String` (vm.go:90-101) for an instruction with operands. -/
def callText (name : Bytes) (args : List Bytes) : Bytes := name ++ b!"(" ++ b!", ".intercalate args ++ b!")"

/-- The `String` methods of the sources (vm.go:56-58, 64-66, 90-105), and `VmValue.String` for a
value that is a source; `none`: there is no source.  `vmByteConst.String` prints the constant with
the format 0, which is `BytesBase64` (expr.go:1289-1292). -/
def VmSrc.text : VmSrc → Option Bytes
  | .none => .none
  | .uint v => some (formatUint v)
  | .sig s => some s
  | .bytes b => some (bytesStr b)
  | .sha256 t s => some (callText b!"sha256" [valueText t s.text])
  | .ed25519verify t1 s1 t2 s2 t3 s3 =>
    some (callText b!"ed25519verify" [valueText t1 s1.text, valueText t2 s2.text, valueText t3 s3.text])
  | .ecdsaVerify t1 s1 t2 s2 t3 s3 t4 s4 t5 s5 =>
    some (callText b!"ecdsa_verify" [valueText t1 s1.text, valueText t2 s2.text, valueText t3 s3.text,
      valueText t4 s4.text, valueText t5 s5.text])
  | .val t s => some (valueText t s.text)

/-- `VmValue` (vm.go:29-33).  `VmDataType` (vm.go:117-137) has the same four values as
`StackType`, and `StackType.Vm` (vm.go:147-160) maps them one to one. -/
structure VmValue where
  t : StackType
  src : VmSrc
deriving DecidableEq, Repr

/-- `VmValue.String` (vm.go:107-113). -/
def VmValue.text (v : VmValue) : Bytes := valueText v.t v.src.text

/-- `VmFrame` (vm.go:17-23). -/
structure VmFrame where
  ret : Option Nat
  numArgs : Nat
  numReturns : Nat
  p : Nat
  name : Bytes
deriving DecidableEq, Repr

/-- `VmBranch` (vm.go:244-259).  The top of `stack` and the innermost of `frames` come first
(Go appends them at the end). -/
structure VmBranch where
  id : Nat
  line : Option Nat
  stack : List VmValue
  frames : List VmFrame
  budget : Int
  name : Bytes
  trace : List Op
deriving DecidableEq, Repr

/-- The values passed to `panic`, and run-time panics of Go (`index`). -/
inductive VmErr where
  | emptyStack (want : StackType)
  | wrongType (want got : StackType)
  | index
  | unknownField
  | notSupported
deriving DecidableEq, Repr

/-- `Vm` (vm.go:300-318).  `syms` is computed from the listing (`findLabel`); `triggered` is the
map from branch ids to lines as a list of pairs in the order of insertion; the field `Trace` is
never used. -/
structure Vm where
  listing : List Op
  version : Nat
  nextId : Nat
  scratch : List VmValue
  branches : List VmBranch
  branch : Option Nat
  current : Nat
  breakpoints : List Nat
  triggered : List (Nat × Nat)
  error : Option VmErr
deriving DecidableEq, Repr

/-- `ExitName` (vm.go:14). -/
def exitName : Bytes := b!"(exited)"
/-- `MainName` (vm.go:12). -/
def mainName : Bytes := b!"(main)"

/-- The map `syms` of `NewVm` (vm.go:338-345) at `name`: the last definition wins. -/
def findLabelFrom (name : Bytes) : Nat → List Op → Option Nat
  | _, [] => none
  | i, o :: os =>
    match findLabelFrom name (i + 1) os with
    | some j => some j
    | none => if o = .label name then some i else none

/-- `Vm.find` (vm.go:320-327); -1 is `none`. -/
def findLabel (l : List Op) (name : Bytes) : Option Nat := findLabelFrom name 0 l

/-- `Vm.updateBreakpoints` (vm.go:329-335): the entries added to `Triggered`. -/
def bpHits (bps : List Nat) (b : VmBranch) : List (Nat × Nat) :=
  (bps.filter fun ln => b.line == some ln).map fun ln => (b.id, ln)

/-- `b.Name = lbl.Name` at a label (vm.go:174-177). -/
def VmBranch.enter (b : VmBranch) (o : Op) : VmBranch :=
  match o with
  | .label n => { b with name := n }
  | _ => b

/-- The loop of `VmBranch.skipNops` (vm.go:171-188) on the rest of the listing; `i` is the
current line, `t` collects what `updateBreakpoints` adds. -/
def skipLoop (bps : List Nat) : List Op → Nat → VmBranch → List (Nat × Nat) →
    Bool × VmBranch × List (Nat × Nat)
  | [], _, b, t => (false, b, t)
  | o :: os, i, b, t =>
    let b := b.enter o
    if o.isNop then
      let b := { b with line := some (i + 1) }
      skipLoop bps os (i + 1) b (t ++ bpHits bps b)
    else (true, b, t)

/-- `VmBranch.skipNops` (vm.go:166-189). -/
def VmBranch.skipNops (l : List Op) (bps : List Nat) (b : VmBranch) :
    Bool × VmBranch × List (Nat × Nat) :=
  match b.line with
  | none => (false, b, [])
  | some i => skipLoop bps (l.drop i) i b []

/-- `VmBranch.exit` (vm.go:287-290). -/
def VmBranch.exit (b : VmBranch) : VmBranch := { b with line := none, name := exitName }

/-- `b.Line++`; -1 becomes 0. -/
def VmBranch.incLine (b : VmBranch) : VmBranch :=
  { b with line := some (match b.line with | some i => i + 1 | none => 0) }

/-! ## Executing one instruction -/

/-- The executing branch and what it can reach: `b`, `b.vm.Scratch`, `b.vm.Id`, the branches
appended by `fork` and the additions to `b.vm.Triggered`; the rest of the machine is constant. -/
structure Mach where
  br : VmBranch
  scratch : List VmValue
  nextId : Nat
  forks : List VmBranch
  trig : List (Nat × Nat)
deriving DecidableEq, Repr

/-- How a piece of an `Execute` method ends. -/
inductive XRes (α : Type) where
  | ok (a : α) (m : Mach)
  | panic (e : VmErr) (m : Mach)
  | hang

/-- Pieces of `Execute` methods. -/
def X (α : Type) : Type := Mach → XRes α

namespace X

protected def pure {α : Type} (a : α) : X α := fun m => .ok a m

protected def bind {α β : Type} (x : X α) (f : α → X β) : X β := fun m =>
  match x m with
  | .ok a m => f a m
  | .panic e m => .panic e m
  | .hang => .hang

instance : Monad X where
  pure := X.pure
  bind := X.bind

/-- `panic`. -/
def throw {α : Type} (e : VmErr) : X α := fun m => .panic e m

/-- A loop that never ends. -/
def loop : X Unit := fun _ => .hang

def modifyBr (f : VmBranch → VmBranch) : X Unit := fun m => .ok () { m with br := f m.br }

/-- `b.Line++`. -/
def incLine : X Unit := modifyBr VmBranch.incLine

/-- `VmBranch.push` (vm.go:191-193). -/
def push (v : VmValue) : X Unit := modifyBr fun b => { b with stack := v :: b.stack }

/-- `VmBranch.pop` (vm.go:217-236). -/
def pop (t : StackType) : X VmValue := fun m =>
  match m.br.stack with
  | [] => .panic (.emptyStack t) m
  | v :: s =>
    if t = .any ∨ v.t = .any ∨ v.t = t then .ok v { m with br := { m.br with stack := s } }
    else .panic (.wrongType t v.t) m

/-- A loop of `n` pops collecting the values, first popped first. -/
def popN : Nat → X (List VmValue)
  | 0 => pure []
  | n + 1 => do
    let v ← pop .any
    let vs ← popN n
    pure (v :: vs)

/-- Pops of the given types, in this order. -/
def pops : List StackType → X Unit
  | [] => pure ()
  | t :: ts => do
    let _ ← pop t
    pops ts

/-- Pushes, in this order, of values without a source. -/
def pushes : List StackType → X Unit
  | [] => pure ()
  | t :: ts => do
    push ⟨t, .none⟩
    pushes ts

/-- Pushes, in this order. -/
def pushAll : List VmValue → X Unit
  | [] => pure ()
  | v :: vs => do
    push v
    pushAll vs

/-- Pops, pushes, next line: most `Execute` methods. -/
def simple (ins outs : List StackType) : X Unit := do
  pops ins
  pushes outs
  incLine

/-- `b.Stack.Items[n]`: index from the bottom. -/
def itemAt (n : Nat) : X VmValue := fun m =>
  match m.br.stack.reverse[n]? with
  | some v => .ok v m
  | none => .panic .index m

/-- `VmBranch.replace` (vm.go:202-204). -/
def replace (n : Nat) (v : VmValue) : X Unit := fun m =>
  if n < m.br.stack.length then
    .ok () { m with br := { m.br with stack := (m.br.stack.reverse.set n v).reverse } }
  else .panic .index m

/-- `b.vm.Scratch.Items[n]` (vm.go:292-294). -/
def scratchAt (n : Nat) : X VmValue := fun m =>
  match m.scratch[n]? with
  | some v => .ok v m
  | none => .panic .index m

/-- `VmBranch.store` (vm.go:206-211). -/
def store (index v : VmValue) : X Unit := fun m =>
  match index.src with
  | .uint n => if n < m.scratch.length then .ok () { m with scratch := m.scratch.set n v }
               else .panic .index m
  | _ => .ok () m

/-- `VmBranch.fork` (vm.go:261-276). -/
def fork (l : List Op) (bps : List Nat) (target : Bytes) : X Unit := fun m =>
  let nb : VmBranch := {
    id := m.nextId, line := findLabel l target, stack := m.br.stack, frames := [],
    budget := m.br.budget, name := target, trace := m.br.trace }
  let r := nb.skipNops l bps
  .ok () { m with nextId := m.nextId + 1, forks := m.forks ++ [r.2.1], trig := m.trig ++ r.2.2 }

/-- The loops `for _, t := range e.Targets { b.fork(t.Name) }` (expr.go:1705-1707, 1753-1755). -/
def forkAll (l : List Op) (bps : List Nat) : List Bytes → X Unit
  | [] => pure ()
  | t :: ts => do
    fork l bps t
    forkAll l bps ts

/-- `VmBranch.jump` (vm.go:278-280). -/
def jump (l : List Op) (target : Bytes) : X Unit :=
  modifyBr fun b => { b with line := findLabel l target }

/-- `VmBranch.call` (vm.go:282-285). -/
def call (l : List Op) (target : Bytes) : X Unit :=
  modifyBr fun b => { b with
    frames := { ret := b.line, numArgs := 0, numReturns := 0, p := b.stack.length % 256,
                name := b.name } :: b.frames
    line := findLabel l target }

/-- `VmBranch.prepare` (vm.go:195-200). -/
def prepare (a r : Nat) : X Unit := fun m =>
  match m.br.frames with
  | [] => .panic .index m
  | f :: fs => .ok () { m with br := { m.br with frames := { f with numArgs := a, numReturns := r } :: fs } }

/-- `b.Frames[len(b.Frames)-1]`. -/
def topFrame : X VmFrame := fun m =>
  match m.br.frames with
  | [] => .panic .index m
  | f :: _ => .ok f m

/-- `RetSubExpr.Execute` (expr.go:1646-1673). -/
def retsub : X Unit := fun m =>
  match m.br.frames with
  | [] => incLine m
  | f :: fs =>
    (do
      let rs ← popN f.numReturns
      let _ ← popN f.numArgs
      pushAll rs.reverse
      modifyBr fun b => { b with
        line := some (match f.ret with | some i => i + 1 | none => 0), name := f.name, frames := fs }) m

/-- The field lookup of the `Execute` methods: `…FieldSpecByField`, `panic("unknown field")`
and `spec.Type().Vm()`. -/
def fieldType (g : FieldGroup) (f : Nat) : X StackType :=
  match g.specs[f]? with
  | some s => pure s.ftype
  | none => throw .unknownField

end X

/-- The `Execute` methods of the types without immediates (`none`: no such method). -/
def Plain.execute : Plain → Option (X Unit)
  | .err => some (X.modifyBr VmBranch.exit) /- expr.go:23-26 -/
  | .sha256 => some (do let v ← X.pop .bytes; X.push ⟨.bytes, .sha256 v.t v.src⟩; X.incLine) /- expr.go:74-80 -/
  | .keccak256 => some (X.simple [.bytes] [.bytes]) /- expr.go:105-111 -/
  | .sha512_256 => some (X.simple [.bytes] [.bytes]) /- expr.go:132-138 -/
  | .ed25519verify => some (do /- expr.go:154-164 -/
    let v1 ← X.pop .bytes
    let v2 ← X.pop .bytes
    let v3 ← X.pop .bytes
    X.push ⟨.uint64, .ed25519verify v1.t v1.src v2.t v2.src v3.t v3.src⟩
    X.incLine)
  | .plus => some (X.simple [.uint64, .uint64] [.uint64]) /- expr.go:261-268 -/
  | .minus => some (X.simple [.uint64, .uint64] [.uint64]) /- expr.go:277-284 -/
  | .div => some (X.simple [.uint64, .uint64] [.uint64]) /- expr.go:300-307 -/
  | .mul => some (X.simple [.uint64, .uint64] [.uint64]) /- expr.go:319-326 -/
  | .lt => some (X.simple [.uint64, .uint64] [.uint64]) /- expr.go:339-346 -/
  | .gt => some (X.simple [.uint64, .uint64] [.uint64]) /- expr.go:355-362 -/
  | .le => some (X.simple [.uint64, .uint64] [.uint64]) /- expr.go:375-382 -/
  | .ge => some (X.simple [.uint64, .uint64] [.uint64]) /- expr.go:399-406 -/
  | .and => some (X.simple [.uint64, .uint64] [.uint64]) /- expr.go:415-422 -/
  | .or => some (X.simple [.uint64, .uint64] [.uint64]) /- expr.go:439-446 -/
  | .eq => some (X.simple [.any, .any] [.uint64]) /- expr.go:455-462 -/
  | .neq => some (X.simple [.any, .any] [.uint64]) /- expr.go:475-482 -/
  | .not => some (X.simple [.uint64] [.uint64]) /- expr.go:498-504 -/
  | .len => some (X.simple [.bytes] [.uint64]) /- expr.go:516-522 -/
  | .itob => some (X.simple [.uint64] [.bytes]) /- expr.go:534-540 -/
  | .btoi => some (X.simple [.bytes] [.uint64]) /- expr.go:552-558 -/
  | .mod => some (X.simple [.uint64, .uint64] [.uint64]) /- expr.go:570-577 -/
  | .bitOr => some (X.simple [.uint64, .uint64] [.uint64]) /- expr.go:585-592 -/
  | .bitAnd => some (X.simple [.uint64, .uint64] [.uint64]) /- expr.go:608-615 -/
  | .bitXor => some (X.simple [.uint64, .uint64] [.uint64]) /- expr.go:623-630 -/
  | .bitNot => some (X.simple [.uint64] [.uint64]) /- expr.go:646-652 -/
  | .mulw => some (X.simple [.uint64, .uint64] [.uint64, .uint64]) /- expr.go:660-668 -/
  | .addw => some (X.simple [.uint64, .uint64] [.uint64, .uint64]) /- expr.go:684-692 -/
  | .divmodw => some (X.simple [.uint64, .uint64, .uint64, .uint64] [.uint64, .uint64, .uint64, .uint64]) /- expr.go:710-722 -/
  | .intc_0 => some (X.simple [] [.uint64]) /- expr.go:771-776 -/
  | .intc_1 => some (X.simple [] [.uint64]) /- expr.go:787-792 -/
  | .intc_2 => some (X.simple [] [.uint64]) /- expr.go:803-808 -/
  | .intc_3 => some (X.simple [] [.uint64]) /- expr.go:819-824 -/
  | .bytec_0 => some (X.simple [] [.bytes]) /- expr.go:875-880 -/
  | .bytec_1 => some (X.simple [] [.bytes]) /- expr.go:892-897 -/
  | .bytec_2 => some (X.simple [] [.bytes]) /- expr.go:908-913 -/
  | .bytec_3 => some (X.simple [] [.bytes]) /- expr.go:924-929 -/
  | .arg_0 => some (X.simple [] [.bytes]) /- expr.go:957-962 -/
  | .arg_1 => some (X.simple [] [.bytes]) /- expr.go:973-978 -/
  | .arg_2 => some (X.simple [] [.bytes]) /- expr.go:989-994 -/
  | .arg_3 => some (X.simple [] [.bytes]) /- expr.go:995-1000 -/
  | .gaids => some (X.simple [.uint64] [.uint64]) /- expr.go:3298-3304 -/
  | .loads => some (X.simple [.uint64] [.any]) /- expr.go:3315-3321 -/
  | .stores => some (do let v ← X.pop .any; let i ← X.pop .uint64; X.store i v; X.incLine) /- expr.go:3328-3336 -/
  | .returnOp => some (do X.pops [.uint64]; X.modifyBr VmBranch.exit) /- expr.go:1684-1688 -/
  | .assert => some (X.simple [.uint64] []) /- expr.go:1817-1821 -/
  | .pop => some (X.simple [.any] []) /- expr.go:2671-2675 -/
  | .dup => some (do let v ← X.pop .any; X.pushAll [v, v]; X.incLine) /- expr.go:1835-1841 -/
  | .dup2 => some (do let v1 ← X.pop .any; let v2 ← X.pop .any; X.pushAll [v1, v2, v1, v2]; X.incLine) /- expr.go:3350-3359 -/
  | .swap => some (do let v1 ← X.pop .any; let v2 ← X.pop .any; X.pushAll [v1, v2]; X.incLine) /- expr.go:2685-2694 -/
  | .select => some (X.simple [.uint64, .any, .any] [.any]) /- expr.go:3404-3412 -/
  | .concat => some (X.simple [.bytes, .bytes] [.bytes]) /- expr.go:2605-2611 -/
  | .substring3 => some (X.simple [.uint64, .uint64, .bytes] [.bytes]) /- expr.go:3090-3097 -/
  | .getbit => some (X.simple [.uint64, .uint64] [.uint64]) /- expr.go:3139-3145 -/
  | .setbit => some (X.simple [.uint64, .uint64, .uint64] [.any]) /- expr.go:3155-3162 -/
  | .getbyte => some (X.simple [.uint64, .bytes] [.uint64]) /- expr.go:3074-3080 -/
  | .setbyte => some (X.simple [.uint64, .uint64, .bytes] [.bytes]) /- expr.go:2497-2504 -/
  | .extract3 => some (X.simple [.uint64, .uint64, .bytes] [.bytes]) /- expr.go:2973-2980 -/
  | .extractUint16 => some (X.simple [.uint64, .bytes] [.uint64]) /- expr.go:1899-1905 -/
  | .extractUint32 => some (X.simple [.uint64, .bytes] [.uint64]) /- expr.go:1915-1921 -/
  | .extractUint64 => none /- Extract64BitsExpr: the Execute at expr.go:1931 belongs to another type -/
  | .replace3 => some (X.simple [.bytes, .uint64, .bytes] [.bytes]) /- expr.go:1963-1970 -/
  | .balance => some (X.simple [.any] [.uint64]) /- expr.go:2800-2805 -/
  | .appOptedIn => some (X.simple [.uint64, .uint64] [.uint64]) /- expr.go:3693-3699 -/
  | .appLocalGet => some (X.simple [.bytes, .any] [.any]) /- expr.go:1536-1542 -/
  | .appLocalGetEx => some (X.simple [.bytes, .uint64, .any] [.any, .uint64]) /- expr.go:1615-1623 -/
  | .appGlobalGet => some (X.simple [.bytes] [.any]) /- expr.go:1583-1588 -/
  | .appGlobalGetEx => some (X.simple [.bytes, .uint64] [.any, .uint64]) /- expr.go:1598-1605 -/
  | .appLocalPut => some (X.simple [.any, .bytes, .any] []) /- expr.go:1552-1558 -/
  | .appGlobalPut => some (X.simple [.any, .bytes] []) /- expr.go:1568-1573 -/
  | .appLocalDel => some (X.simple [.bytes, .any] []) /- expr.go:1633-1638 -/
  | .appGlobalDel => some (X.simple [.bytes] []) /- expr.go:3601-3605 -/
  | .minBalance => some (X.simple [.any] [.uint64]) /- expr.go:3030-3035 -/
  | .ed25519verifyBare => some (X.simple [.bytes, .bytes, .bytes] [.uint64]) /- expr.go:2047-2054 -/
  | .retsub => some X.retsub /- expr.go:1646-1673 -/
  | .shl => some (X.simple [.uint64, .uint64] [.uint64]) /- expr.go:3107-3113 -/
  | .shr => some (X.simple [.uint64, .uint64] [.uint64]) /- expr.go:3123-3129 -/
  | .sqrt => some (X.simple [.uint64] [.uint64]) /- expr.go:2784-2790 -/
  | .bitlen => some (X.simple [.bytes] [.uint64]) /- expr.go:2064-2070 -/
  | .exp => some (X.simple [.uint64, .uint64] [.uint64]) /- expr.go:2853-2859 -/
  | .expw => some (X.simple [.uint64, .uint64] [.uint64, .uint64]) /- expr.go:2084-2092 -/
  | .bsqrt => some (X.simple [.bytes] [.bytes]) /- expr.go:3564-3569 -/
  | .divw => some (X.simple [.uint64, .uint64, .uint64] [.uint64]) /- expr.go:3385-3392 -/
  | .sha3_256 => some (X.simple [.bytes] [.bytes]) /- expr.go:48-53 -/
  | .bplus => some (X.simple [.bytes, .bytes] [.bytes]) /- expr.go:3266-3272 -/
  | .bminus => none
  | .bdiv => some (X.simple [.bytes, .bytes] [.bytes]) /- expr.go:3246-3252 -/
  | .bmul => some (X.simple [.bytes, .bytes] [.bytes]) /- expr.go:3226-3232 -/
  | .blt => some (X.simple [.bytes, .bytes] [.uint64]) /- expr.go:3615-3621 -/
  | .bgt => some (X.simple [.bytes, .bytes] [.uint64]) /- expr.go:3428-3434 -/
  | .ble => some (X.simple [.bytes, .bytes] [.uint64]) /- expr.go:3444-3450 -/
  | .bge => some (X.simple [.bytes, .bytes] [.uint64]) /- expr.go:3460-3466 -/
  | .beq => some (X.simple [.bytes, .bytes] [.uint64]) /- expr.go:3476-3482 -/
  | .bneq => some (X.simple [.bytes, .bytes] [.uint64]) /- expr.go:3492-3498 -/
  | .bmod => some (X.simple [.bytes, .bytes] [.bytes]) /- expr.go:3512-3518 -/
  | .bbitOr => none
  | .bbitAnd => some (X.simple [.bytes, .bytes] [.bytes]) /- expr.go:3544-3550 -/
  | .bbitXor => some (X.simple [.bytes, .bytes] [.bytes]) /- expr.go:3643-3649 -/
  | .bbitNot => some (X.simple [.bytes] [.bytes]) /- expr.go:3663-3668 -/
  | .bzero => some (X.simple [.uint64] [.bytes]) /- expr.go:3678-3683 -/
  | .log => some (X.simple [.bytes] []) /- expr.go:2915-2919 -/
  | .itxnBegin => none
  | .itxnSubmit => none
  | .itxnNext => none
  | .boxCreate => some (X.simple [.uint64, .bytes] [.uint64]) /- expr.go:1366-1372 -/
  | .boxExtract => some (X.simple [.uint64, .uint64, .bytes] [.bytes]) /- expr.go:1439-1446 -/
  | .boxReplace => some (X.simple [.bytes, .uint64, .bytes] []) /- expr.go:1422-1428 -/
  | .boxDel => some (X.simple [.bytes] [.uint64]) /- expr.go:1398-1403 -/
  | .boxLen => some (X.simple [.bytes] [.uint64, .uint64]) /- expr.go:1381-1387 -/
  | .boxGet => some (X.simple [.bytes] [.bytes, .uint64]) /- expr.go:1337-1343 -/
  | .boxPut => some (X.simple [.bytes, .bytes] []) /- expr.go:1354-1359 -/
  | .args => some (X.simple [.uint64] [.bytes]) /- expr.go:2134-2139 -/
  | .gloadss => some (X.simple [.uint64, .uint64] [.any]) /- expr.go:2149-2155 -/

/-- The `Execute` methods of the types with one `uint8` immediate. -/
def U8Op.execute (n : Nat) : U8Op → X Unit
  | .intc => X.simple [] [.uint64] /- expr.go:756-761 -/
  | .bytec => X.simple [] [.bytes] /- expr.go:856-861 -/
  | .arg => X.simple [] [.bytes] /- expr.go:943-948 -/
  | .load => do /- expr.go:1086-1092 -/
    let v ← X.scratchAt n
    X.push ⟨.any, .val v.t v.src⟩
    X.incLine
  | .store => do let v ← X.pop .any; X.store ⟨.uint64, .uint n⟩ v; X.incLine /- expr.go:1100-1107 -/
  | .gloads => X.simple [.uint64] [.any] /- expr.go:2766-2772 -/
  | .gaid => X.simple [] [.uint64] /- expr.go:3284-3289 -/
  | .bury => do let v ← X.pop .any; X.replace n v; X.incLine /- expr.go:1849-1854 -/
  | .popn => do let _ ← X.popN n; X.incLine /- expr.go:1868-1874 -/
  /- expr.go:1884-1891; the `uint8` loop variable never exceeds 255 -/
  | .dupn => do
    let v ← X.pop .any
    if n ≥ 255 then X.loop else X.pushAll (List.replicate (n + 1) v)
    X.incLine
  /- expr.go:3193-3198, in `uint8` arithmetic -/
  | .dig => fun m => (do let v ← X.itemAt ((m.br.stack.length + 255 - n) % 256); X.push v; X.incLine : X Unit) m
  | .cover => do /- expr.go:2516-2533 -/
    let v ← X.pop .any
    let is ← X.popN n
    X.push v
    X.pushAll is.reverse
    X.incLine
  | .uncover => do /- expr.go:2539-2556 -/
    let is ← X.popN n
    let v ← X.pop .any
    X.pushAll is.reverse
    X.push v
    X.incLine
  | .replace2 => X.simple [.bytes, .bytes] [.bytes] /- expr.go:1949-1955 -/

/-- The `Execute` methods of the types with two `uint8` immediates. -/
def U8U8Op.execute (m n : Nat) : U8U8Op → X Unit
  | .gload => X.simple [] [.any] /- expr.go:2751-2756 -/
  | .substring => X.simple [.bytes] [.bytes] /- expr.go:3372-3377 -/
  | .extract => X.simple [.bytes] [.bytes] /- expr.go:2840-2845 -/
  | .proto => do X.prepare m n; X.incLine /- expr.go:1185-1189 -/

/-- `uint8(int8(p) + i)`. -/
def frameIndex (p : Nat) (i : Int) : Nat := (((p : Int) + i) % 256).toNat

/-- The `Execute` methods of the types with one `int8` immediate. -/
def I8Op.execute (i : Int) : I8Op → X Unit
  | .frameDig => do /- expr.go:2477-2485 -/
    let f ← X.topFrame
    let v ← X.itemAt (frameIndex f.p i)
    X.push v
    X.incLine
  | .frameBury => do /- expr.go:2459-2467 -/
    let f ← X.topFrame
    let v ← X.pop .any
    X.replace (frameIndex f.p i) v
    X.incLine

/-- The `Execute` methods of the types whose only immediate is a field. -/
def FieldOp.execute (f : Nat) : FieldOp → X Unit
  | .txn => do let t ← X.fieldType .txn f; X.pushes [t]; X.incLine /- expr.go:1024-1034 -/
  | .gtxns => do let t ← X.fieldType .txn f; X.pops [.uint64]; X.pushes [t]; X.incLine /- expr.go:1167-1178 -/
  | .itxn => do let t ← X.fieldType .txn f; X.pushes [t]; X.incLine /- expr.go:2635-2645 -/
  | .itxnField => X.simple [.any] [] /- expr.go:2659-2663 -/
  | .txnas => do X.pops [.uint64]; let t ← X.fieldType .txn f; X.pushes [t]; X.incLine /- expr.go:2813-2825 -/
  | .gtxnsas => do X.pops [.uint64, .uint64]; let t ← X.fieldType .txn f; X.pushes [t]; X.incLine /- expr.go:3170-3183 -/
  | .itxnas => do X.pops [.uint64]; let t ← X.fieldType .txn f; X.pushes [t]; X.incLine /- expr.go:2163-2175 -/
  | .globalOp => do let t ← X.fieldType .global f; X.pushes [t]; X.incLine /- expr.go:1064-1074 -/
  | .ecdsaVerify => do /- expr.go:190-201 -/
    let v1 ← X.pop .bytes
    let v2 ← X.pop .bytes
    let v3 ← X.pop .bytes
    let v4 ← X.pop .bytes
    let v5 ← X.pop .bytes
    X.push ⟨.uint64, .ecdsaVerify v1.t v1.src v2.t v2.src v3.t v3.src v4.t v4.src v5.t v5.src⟩
    X.incLine
  | .ecdsaPkDecompress => X.simple [.bytes] [.bytes, .bytes] /- expr.go:213-220 -/
  | .ecdsaPkRecover => X.simple [.bytes, .bytes, .uint64, .bytes] [.bytes, .bytes] /- expr.go:236-246 -/
  | .base64Decode => X.simple [.bytes] [.bytes] /- expr.go:1998-2003 -/
  | .jsonRef => X.simple [.bytes, .bytes] [.any] /- expr.go:2029-2035 -/
  | .assetHoldingGet => do /- expr.go:3000-3014 -/
    X.pops [.uint64, .any]
    let t ← X.fieldType .assetHolding f
    X.pushes [t, .uint64]
    X.incLine
  | .assetParamsGet => do /- expr.go:2584-2597 -/
    X.pops [.uint64]
    let t ← X.fieldType .assetParams f
    X.pushes [t, .uint64]
    X.incLine
  | .appParamsGet => do /- expr.go:2871-2884 -/
    X.pops [.uint64]
    let t ← X.fieldType .appParams f
    X.pushes [t, .uint64]
    X.incLine
  | .acctParamsGet => do /- expr.go:2894-2907 -/
    X.pops [.any]
    let t ← X.fieldType .acctParams f
    X.pushes [t, .uint64]
    X.incLine
  | .vrfVerify => X.simple [.bytes, .bytes, .bytes] [.bytes, .uint64] /- expr.go:2957-2965 -/
  | .block => do X.pops [.uint64]; let t ← X.fieldType .block f; X.pushes [t]; X.incLine /- expr.go:2927-2939 -/
  | .ecAdd => X.simple [.bytes, .bytes] [.bytes] /- expr.go:2294-2300 -/
  | .ecScalarMul => X.simple [.bytes, .bytes] [.bytes] /- expr.go:2325-2331 -/
  | .ecPairingCheck => X.simple [.bytes, .bytes] [.uint64] /- expr.go:2356-2362 -/
  | .ecMultiExp => X.simple [.bytes, .bytes] [.bytes] /- expr.go:2372-2378 -/
  | .ecSubgroupCheck => X.simple [.bytes] [.uint64] /- expr.go:2403-2408 -/
  | .ecMapTo => X.simple [.bytes] [.bytes] /- expr.go:2433-2438 -/

/-- The `Execute` methods; `none`: the type has none, and `Step` only advances the line. -/
def Op.execute (l : List Op) (bps : List Nat) : Op → Option (X Unit)
  | .empty => none
  | .label _ => none
  | .pragma _ => none
  | .comment _ => none
  | .plain k => k.execute
  | .u8 k n => some (k.execute n)
  | .u8u8 k m n => some (k.execute m n)
  | .i8 k i => some (k.execute i)
  | .field k f => some (k.execute f)
  | .fieldIdx .txna f _ => some (do let t ← X.fieldType .txn f; X.pushes [t]; X.incLine) /- expr.go:1124-1134 -/
  | .fieldIdx .gtxnsa f _ => some (do let t ← X.fieldType .txn f; X.pops [.uint64]; X.pushes [t]; X.incLine) /- expr.go:2729-2740 -/
  | .fieldIdx .itxna _ _ => none
  | .groupField .gtxn _ f => some (do let t ← X.fieldType .txn f; X.pushes [t]; X.incLine) /- expr.go:1145-1155 -/
  | .groupField .gitxn _ f => some (do let t ← X.fieldType .txn f; X.pushes [t]; X.incLine) /- expr.go:3048-3058 -/
  | .groupField .gtxnas _ f => some (do X.pops [.uint64]; let t ← X.fieldType .txn f; X.pushes [t]; X.incLine) /- expr.go:2110-2122 -/
  | .groupField .gitxnas _ f => some (do X.pops [.uint64]; let t ← X.fieldType .txn f; X.pushes [t]; X.incLine) /- expr.go:2186-2198 -/
  | .groupFieldIdx .gtxna _ f _ => some (do let t ← X.fieldType .txn f; X.pushes [t]; X.incLine) /- expr.go:2708-2718 -/
  | .groupFieldIdx .gitxna _ f _ => some (do let t ← X.fieldType .txn f; X.pushes [t]; X.incLine) /- expr.go:3583-3593 -/
  | .int v => some (do X.push ⟨.uint64, .uint v⟩; X.incLine) /- expr.go:1276-1281 -/
  | .pushint _ => some (X.simple [] [.uint64]) /- expr.go:1266-1270 -/
  | .byte v => some (do X.push ⟨.bytes, .bytes v⟩; X.incLine) /- expr.go:1320-1328 -/
  | .pushbytes v => some (do X.push ⟨.bytes, .bytes v⟩; X.incLine) /- expr.go:1252-1256 -/
  | .addr _ => none
  | .method s => some (do X.push ⟨.bytes, .sig s⟩; X.incLine) /- expr.go:2235-2239 -/
  | .intcblock _ => none
  | .pushints vs => some (do X.pushes (vs.map fun _ => .bytes); X.incLine) /- expr.go:2208-2214 -/
  | .bytecblock _ => none
  | .pushbytess vs => some (do X.pushAll (vs.map fun v => ⟨.bytes, .bytes v⟩); X.incLine) /- expr.go:2253-2259 -/
  | .branch .bnz t => some (do X.pops [.uint64]; X.fork l bps t; X.incLine) /- expr.go:1464-1469 -/
  | .branch .bz t => some (do X.pops [.uint64]; X.fork l bps t; X.incLine) /- expr.go:1485-1490 -/
  | .branch .b t => some (X.jump l t) /- expr.go:1506-1509 -/
  | .branch .callsub t => some (X.call l t) /- expr.go:1792-1795 -/
  | .switch ts => some (do X.pops [.uint64]; X.forkAll l bps ts; X.incLine) /- expr.go:1702-1712 -/
  | .match_ ts => some (do /- expr.go:1745-1759 -/
      let _ ← X.popN ts.length
      X.pops [.any]
      X.forkAll l bps ts
      X.incLine)

/-! ## Costs -/

/-- The `Cost` methods of the types without immediates; `[]`: no such method. -/
def Plain.costs (version : Nat) : Plain → List Int
  | .sha3_256 => [130] /- expr.go:44-46 -/
  | .sha256 => if version = 1 then [7] else [35] /- expr.go:65-72 -/
  | .keccak256 => if version = 1 then [26] else [130] /- expr.go:96-103 -/
  | .sha512_256 => if version = 1 then [9] else [45] /- expr.go:123-130 -/
  | .ed25519verify => [1900] /- expr.go:150-152 -/
  | .ed25519verifyBare => [1900] /- expr.go:2043-2045 -/
  | .divmodw => [20] /- expr.go:704-706 -/
  | .expw => [10] /- expr.go:2080-2082 -/
  | .sqrt => [4] /- expr.go:2780-2782 -/
  | .bminus => [10] /- expr.go:3210-3212 -/
  | .bmul => [20] /- expr.go:3222-3224 -/
  | .bdiv => [20] /- expr.go:3242-3244 -/
  | .bplus => [10] /- expr.go:3262-3264 -/
  | .bmod => [20] /- expr.go:3508-3510 -/
  | .bbitOr => [6] /- expr.go:3528-3530 -/
  | .bbitAnd => [6] /- expr.go:3540-3542 -/
  | .bbitXor => [6] /- expr.go:3639-3641 -/
  | .bbitNot => [4] /- expr.go:3659-3661 -/
  | .bsqrt => [40] /- expr.go:3560-3562 -/
  | _ => []

/-- `Base64DecodeExpr.Cost` (expr.go:1978-1992) for one length. -/
def base64Cost (l : Nat) : Int := if l % 16 > 0 then 1 + l / 16 + 1 else 1 + l / 16

/-- `JsonRefExpr.Cost` (expr.go:2009-2023) for one length. -/
def jsonCost (l : Nat) : Int := if l % 7 > 0 then 25 + 2 * l / 7 + 2 else 25 + 2 * l / 7

/-- The switches over the curve in the `Cost` methods of the elliptic curve types. -/
def ecCosts (bn bls : Int) (g : Nat) : Except VmErr (List Int) :=
  if g = 0 ∨ g = 1 then .ok [bn] else if g = 2 ∨ g = 3 then .ok [bls] else .error .notSupported

/-- `ecdsaVerifyCosts[i]` and `ecdsaDecompressCosts[i]` (go_algorand.go:2278-2286). -/
def ecdsaCosts (tbl : List Int) (i : Nat) : Except VmErr (List Int) :=
  match tbl[i]? with
  | some c => .ok [c]
  | none => .error .index

/-- `b.peek(0).Lengths()` (vm.go:213-215), with a cost for each. -/
def lengthCosts (cost : Nat → Int) (b : VmBranch) : Except VmErr (List Int) :=
  match b.stack with
  | [] => .error .index
  | v :: _ => .ok (v.src.lengths.map cost)

/-- The `Cost` methods; `[]`: no such method. -/
def Op.costs (version : Nat) (b : VmBranch) : Op → Except VmErr (List Int)
  | .plain k => .ok (k.costs version)
  | .field .ecdsaVerify f => ecdsaCosts [1700, 2500] f /- expr.go:178-180 -/
  | .field .ecdsaPkDecompress f => ecdsaCosts [650, 2400] f /- expr.go:209-211 -/
  | .field .ecdsaPkRecover _ => .ok [2000] /- expr.go:232-234 -/
  | .field .base64Decode _ => lengthCosts base64Cost b /- expr.go:1978-1992 -/
  | .field .jsonRef _ => lengthCosts jsonCost b /- expr.go:2009-2023 -/
  | .field .vrfVerify _ => .ok [5700] /- expr.go:2953-2955 -/
  | .field .ecAdd g => ecCosts 10 20 g /- expr.go:2279-2292 -/
  | .field .ecScalarMul g => ecCosts 100 200 g /- expr.go:2310-2323 -/
  | .field .ecPairingCheck g => ecCosts 1000 2000 g /- expr.go:2341-2354 -/
  | .field .ecMultiExp g => ecCosts 100 200 g /- expr.go:2380-2393 -/
  | .field .ecSubgroupCheck g => ecCosts 100 200 g /- expr.go:2410-2423 -/
  | .field .ecMapTo g => ecCosts 100 200 g /- expr.go:2440-2453 -/
  | _ => .ok []

/-! ## The machine -/

namespace Vm

/-- `v.Current++` with wrap-around (vm.go:377-380). -/
def advance (v : Vm) : Vm :=
  { v with current := if v.current + 1 = v.branches.length then 0 else v.current + 1 }

/-- The loop of `Vm.skipNops` (vm.go:373-396).  Go's loop ends when `Current` is back at its
first value, that is after one round; the first argument counts the branches left. -/
def skipBranches : Nat → Vm → Vm
  | 0, v => { v with branch := none }
  | n + 1, v =>
    match v.branches[v.current]? with
    | none => { v with branch := none }
    | some b =>
      if b.line = none then skipBranches n v.advance
      else
        let r := b.skipNops v.listing v.breakpoints
        let v := { v with branches := v.branches.set v.current r.2.1, triggered := v.triggered ++ r.2.2 }
        if r.1 then { v with branch := some v.current }
        else skipBranches n (advance { v with branches := v.branches.set v.current r.2.1.exit })

/-- `Vm.skipNops` (vm.go:370-396). -/
def skipNops (v : Vm) : Vm := skipBranches v.branches.length v

/-- `NewVm` (vm.go:337-368), from the fields of the `ProcessResult` it uses. -/
def new (listing : List Op) (version : Nat) : Vm :=
  skipNops {
    listing := listing, version := version, nextId := 1,
    scratch := List.replicate 256 ⟨.none, .none⟩,
    branches := [{ id := 0, line := some 0, stack := [], frames := [], budget := 700,
                   name := mainName, trace := [] }],
    branch := none, current := 0, breakpoints := [], triggered := [], error := none }

/-- `Vm.Switch` (vm.go:398-406). -/
def switch (v : Vm) (id : Nat) : Vm :=
  match v.branches.findIdx? fun b => b.id == id with
  | some i => { v with current := i, branch := some i }
  | none => v

/-- The loop of `Vm.SetBreakpoints` (vm.go:413-424); `none`: index out of range. -/
def checkBreakpoints (l : List Op) : List Int → Option (List Nat)
  | [] => some []
  | ln :: lns =>
    if ln ≥ (l.length : Int) then checkBreakpoints l lns
    else if ln < 0 then none
    else match l[ln.toNat]? with
      | none => none
      | some o => (checkBreakpoints l lns).map fun r => if o.isNop then r else ln.toNat :: r

/-- `Vm.SetBreakpoints` (vm.go:408-428); the lines of the result are also the keys of the
returned map. `none`: it panics. -/
def setBreakpoints (v : Vm) (lns : List Int) : Option Vm :=
  (checkBreakpoints v.listing lns).map fun bps => { v with breakpoints := bps }

/-- Writing back what an instruction changed. -/
def writeBack (v : Vm) (k : Nat) (m : Mach) : Vm :=
  { v with branches := v.branches.set k m.br ++ m.forks, scratch := m.scratch, nextId := m.nextId,
           triggered := m.trig }

/-- `cb.skipNops()` (vm.go:491). -/
def skipNopsOf (v : Vm) (k : Nat) : Vm :=
  match v.branches[k]? with
  | none => v
  | some b =>
    let r := b.skipNops v.listing v.breakpoints
    { v with branches := v.branches.set k r.2.1, triggered := v.triggered ++ r.2.2 }

/-- `v.updateBreakpoints(cb)` (vm.go:493). -/
def updateBreakpoints (v : Vm) (k : Nat) : Vm :=
  match v.branches[k]? with
  | none => v
  | some b => { v with triggered := v.triggered ++ bpHits v.breakpoints b }

/-- `op.Execute(cb)`, or `cb.Line++` if there is no such method (vm.go:484-489). -/
def executeOp (v : Vm) (o : Op) : X Unit := (o.execute v.listing v.breakpoints).getD X.incLine

/-- One round of the loop over the costs (vm.go:464-497) for the branch `k`.  `cb` is never nil,
so the code at 465-478 is never reached.  `none`: it does not return; `false`: it panicked and
the loop is left. -/
def stepCost (v : Vm) (k : Nat) (b : VmBranch) (o : Op) (cost : Int) : Option (Bool × Vm) :=
  if b.budget ≥ cost then
    match v.executeOp o { br := { b with budget := b.budget - cost, trace := b.trace ++ [o] }
                          scratch := v.scratch, nextId := v.nextId, forks := []
                          trig := v.triggered } with
    | .hang => none
    | .panic e m => some (false, { v.writeBack k m with error := some e })
    | .ok _ m => some (true, (((v.writeBack k m).skipNopsOf k).skipNops).updateBreakpoints k)
  else some (true, { v with branches := v.branches.set k b.exit })

/-- The loop over the costs (vm.go:464-497). -/
def stepCosts (v : Vm) (k : Nat) (o : Op) : List Int → Option Vm
  | [] => some v
  | c :: cs =>
    match v.branches[k]? with
    | none => some v
    | some b =>
      match v.stepCost k b o c with
      | none => none
      | some (false, v) => some v
      | some (true, v) => v.stepCosts k o cs

/-- `Vm.Step` (vm.go:444-499), after the initial `skipNops`; `none`: it does not return. -/
def stepAt (v : Vm) : Option Vm :=
  match v.branch with
  | none => some v
  | some k =>
    match v.branches[k]? with
    | none => some { v with error := some .index }
    | some b =>
      match b.line.bind fun i => v.listing[i]? with
      | none => some { v with error := some .index }
      | some o =>
        match o.costs v.version b with
        | .error e => some { v with error := some e }
        | .ok cs => v.stepCosts k o (if cs = [] then [1] else cs)

/-- `Vm.Step` (vm.go:430-499); `none`: it does not return. -/
def step (v : Vm) : Option Vm := stepAt (skipNops { v with error := none, triggered := [] })

/-- `Vm.Run` (vm.go:501-509): `v.Runs w` says that the loop, entered in the state `v`, returns
in the state `w`. -/
inductive Runs : Vm → Vm → Prop
  /-- the loop condition fails -/
  | stop {v : Vm} : v.branch = none ∨ v.error ≠ none → Runs v v
  /-- a breakpoint was triggered -/
  | hit {v w : Vm} : v.branch ≠ none → v.error = none → v.step = some w → w.triggered ≠ [] → Runs v w
  /-- another round -/
  | next {v w u : Vm} : v.branch ≠ none → v.error = none → v.step = some w → w.triggered = [] →
      Runs w u → Runs v u

end Vm

end Teal
