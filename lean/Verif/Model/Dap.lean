import Verif.Model.Vm
import Verif.Model.Process

/-!
# The debug adapter (`dbg/dbg.go`)

A message is modelled as its JSON decoded: decoding itself (`read`, `readInto`) is not modelled.
What `String` shows of a value or an instruction is modelled as the value or the instruction.
-/

namespace Teal.Dap

/-- `dapSource` (dbg.go:213-216). -/
structure Source where
  name : Bytes
  path : Bytes
deriving DecidableEq, Repr

/-- `dapVariablesRequestParams` (dbg.go:133-137). -/
structure VarArgs where
  ref : Int
  start : Option Int
  count : Option Int
deriving DecidableEq, Repr

/-- The messages, by `type` and `command` (dbg.go:305-740).  Absent arguments are `none`. -/
inductive Command where
  /-- `linesStartAt1`, `columnsStartAt1` -/
  | initialize (args : Option (Option Bool × Option Bool))
  /-- `program` and what `os.ReadFile` returns for it at that time; `none`: an error -/
  | launch (args : Option Bytes) (file : Option Bytes)
  /-- `disconnect`, `evaluate`, `setFunctionBreakpoints`, `setInstructionBreakpoints`,
  `setExceptionBreakpoints`, `configurationDone` -/
  | plain (name : Bytes)
  | setBreakpoints (args : Option (Source × List Int))
  | threads
  | pause
  | continue_ (args : Option Int)
  | next (args : Option Int)
  | variables (args : Option VarArgs)
  | scopes (args : Option Int)
  | stackTrace (args : Option Int)
  /-- an unknown command, a message that is no request, or one that does not decode -/
  | other
deriving DecidableEq, Repr

/-- A message: `seq` (dbg.go:82-85) and the command. -/
structure Msg where
  seq : Int
  cmd : Command
deriving DecidableEq, Repr

/-- The commands of `Command.plain` (dbg.go:385-390, 442-445, 527-528). -/
def plainCommands : List Bytes :=
  [b!"disconnect", b!"evaluate", b!"setFunctionBreakpoints", b!"setInstructionBreakpoints",
   b!"setExceptionBreakpoints", b!"configurationDone"]

/-- What a `dapVariable` (dbg.go:143-147) shows. -/
inductive Shown where
  | budget (n : Int)
  | value (v : VmValue)
  | op (o : Op)
deriving DecidableEq, Repr

/-- The name of a variable with the index `n` (dbg.go:584, 590, 610, 630). -/
def Shown.label (n : Nat) : Shown → Bytes
  | .budget _ => b!"Budget"
  | _ => formatUint n

/-- The value of a variable (dbg.go:585, 591, 611, 631). -/
def Shown.text : Shown → Bytes
  | .budget n => formatInt n
  | .value v => v.text
  | .op o => o.str

/-- The names and values of variables, as they are sent. -/
def wireVars (vs : List (Nat × Shown)) : List (Bytes × Bytes) := vs.map fun p => (p.2.label p.1, p.2.text)

/-- `dapScope` (dbg.go:153-158). -/
structure Scope where
  name : Bytes
  ref : Int
  indexed : Option Nat
deriving DecidableEq, Repr

/-- `dapStackFrame` (dbg.go:114-122). -/
structure Frame where
  id : Nat
  name : Bytes
  line : Int
  column : Int
  source : Source
deriving DecidableEq, Repr

/-- `dapBreakpoint` (dbg.go:223-229). -/
structure Bp where
  id : Int
  verified : Bool
  line : Int
  source : Source
deriving DecidableEq, Repr

/-- The reasons of `dapStoppedEventParams` (dbg.go:248-256). -/
inductive Reason where
  | entry | pause | exception | breakpoint | step
deriving DecidableEq, Repr

/-- The bodies of responses and events. -/
inductive Payload where
  | empty
  | capabilities
  | breakpoints (bs : List Bp)
  | threads (ids : List Nat)
  | continued
  | variables (vs : List (Nat × Shown))
  | scopes (ss : List Scope)
  | frames (fs : List Frame) (total : Nat)
  | initialized
  | process (name : Bytes)
  | stopped (reason : Reason) (thread : Option Nat) (hits : List Nat)
deriving DecidableEq, Repr

/-- A message sent: `dapResponse` (dbg.go:187-195), with the number of the request, or `dapEvent`
(dbg.go:236-241). -/
structure Sent where
  seq : Nat
  /-- `request_seq` and `success`, of responses -/
  response : Option (Int × Bool)
  body : Payload
deriving DecidableEq, Repr

/-- `dbgVm` (dbg.go:44-48). -/
structure Machine where
  tvm : Vm
  name : Bytes
deriving DecidableEq, Repr

/-- `dbg` (dbg.go:23-42); the fields `shutdown`, `exit`, `exitCode`, `bid` are never set.  The
breakpoints `bs` are only used while `setBreakpoints` is handled. -/
structure Dbg where
  id : Nat
  vm : Option Machine
  lz : Int
  cz : Int
deriving DecidableEq, Repr

/-- `New` (dbg.go:66-80). -/
def Dbg.new : Dbg := { id := 0, vm := none, lz := 0, cz := 0 }

/-- What handling a message does: the messages sent, and the state afterwards unless it
panics. -/
structure Outcome where
  outs : List Sent
  next : Option Dbg
deriving DecidableEq, Repr

/-- `dbg.reply` (dbg.go:271-282). -/
def Dbg.reply (d : Dbg) (seq : Int) (body : Payload) : Dbg × Sent :=
  ({ d with id := d.id + 1 }, { seq := d.id + 1, response := some (seq, true), body := body })

/-- `dbg.notify` (dbg.go:295-303). -/
def Dbg.notify (d : Dbg) (body : Payload) : Dbg × Sent :=
  ({ d with id := d.id + 1 }, { seq := d.id + 1, response := none, body := body })

/-- `return l.reply(..)` -/
def Dbg.replies (d : Dbg) (seq : Int) (body : Payload) : Outcome :=
  let r := d.reply seq body
  { outs := [r.2], next := some r.1 }

/-- A reply and then an event. -/
def Dbg.replyNotify (d : Dbg) (seq : Int) (body event : Payload) : Outcome :=
  let r := d.reply seq body
  let n := r.1.notify event
  { outs := [r.2, n.2], next := some n.1 }

/-- A reply and then a panic. -/
def Dbg.replyPanic (d : Dbg) (seq : Int) (body : Payload) : Outcome :=
  { outs := [(d.reply seq body).2], next := none }

/-- `l.vm.tvm.Branch.Id`, if there is a branch (dbg.go:373-377 and others). -/
def branchId (v : Vm) : Option Nat := (v.branch.bind fun k => v.branches[k]?).map (·.id)

/-- The slots `s <= i < e` of a list, as the loops of dbg.go:606-614, 627-633 read them; `none`: an
index is out of range. -/
def slots {α : Type} (l : List α) (s e : Int) : Option (List (Nat × α)) :=
  if e ≤ s then some []
  else if s < 0 then none
  else if (l.length : Int) < e then none
  else some ((l.zipIdx.drop s.toNat).take (e - s).toNat |>.map fun p => (p.2, p.1))

/-- The bounds of dbg.go:595-604, 616-625. -/
def bounds (a : VarArgs) (n : Nat) : Int × Int :=
  let s := a.start.getD 0
  (s, match a.count with
    | some c => s + c
    | none => n)

/-- The variables of one branch (dbg.go:581-634); `none`: an index is out of range. -/
def branchVars (v : Vm) (b : VmBranch) (a : VarArgs) (i : Int) : Option (List (Nat × Shown)) :=
  if i = 0 then some [(0, .budget b.budget)]
  else if i = 1 then
    -- the top of the stack comes first
    some ((b.stack.zipIdx.map fun p => (b.stack.length - 1 - p.2, .value p.1)))
  else if i = 2 then
    (slots v.scratch (bounds a v.scratch.length).1 (bounds a v.scratch.length).2).map fun vs =>
      (vs.filter fun p => p.2.t != .none).map fun p => (p.1, .value p.2)
  else if i = 3 then
    (slots b.trace (bounds a b.trace.length).1 (bounds a b.trace.length).2).map fun vs =>
      vs.map fun p => (p.1, .op p.2)
  else some []

/-- The loop over the branches (dbg.go:579-636). -/
def varsLoop (v : Vm) (a : VarArgs) (f i : Int) : List VmBranch → Option (List (Nat × Shown))
  | [] => some []
  | b :: bs =>
    if (b.id : Int) = f then
      match branchVars v b a i with
      | none => none
      | some vs => (varsLoop v a f i bs).map (vs ++ ·)
    else varsLoop v a f i bs

/-- The case `variables` (dbg.go:564-641): the variables shown; `none`: a panic. -/
def variables (m : Option Machine) (a : VarArgs) : Option (List (Nat × Shown)) :=
  if a.ref > 0 then
    match m with
    | none => some []
    | some m => varsLoop m.tvm a ((a.ref - 1) / 10) ((a.ref - 1) % 10) m.tvm.branches
  else some []

/-- The scopes of one branch (dbg.go:654-679). -/
def branchScopes (b : VmBranch) : List Scope :=
  [{ name := b!"State", ref := 1 + 10 * b.id, indexed := none },
   { name := b!"Stack", ref := 2 + 10 * b.id, indexed := some b.stack.length },
   { name := b!"Scratch", ref := 3 + 10 * b.id, indexed := some 256 },
   { name := b!"Trace", ref := 4 + 10 * b.id, indexed := some b.trace.length }]

/-- The case `scopes` (dbg.go:643-685). -/
def scopes (m : Option Machine) (frame : Int) : List Scope :=
  match m with
  | none => []
  | some m => (m.tvm.branches.filter fun b => (b.id : Int) = frame).flatMap branchScopes

/-- A line of the machine as an `int`; -1 for a branch that exited. -/
def lineNo : Option Nat → Int
  | some i => i
  | none => -1

/-- The loop over the frames of a branch (dbg.go:697-726). -/
def branchFrames (d : Dbg) (src : Source) (id : Nat) : Option Nat → Bytes → List VmFrame → List Frame
  | line, name, [] => [{ id := id, name := name, line := lineNo line + d.lz, column := d.cz, source := src }]
  | line, name, f :: fs =>
    { id := id, name := name, line := lineNo line + d.lz, column := d.cz, source := src } ::
      branchFrames d src id f.ret f.name fs

/-- The case `stackTrace` (dbg.go:687-737). -/
def frames (d : Dbg) (thread : Int) : List Frame :=
  match d.vm with
  | none => []
  | some m => (m.tvm.branches.filter fun b => (b.id : Int) = thread).flatMap fun b =>
      branchFrames d ⟨m.name, m.name⟩ b.id b.line b.name b.frames

/-- `Vm.Switch` at an `int`. -/
def switchTo (v : Vm) (id : Int) : Vm := if 0 ≤ id then v.switch id.toNat else v

/-- The breakpoints of the response to `setBreakpoints` (dbg.go:420-430); `w` is the machine after
`SetBreakpoints`, whose breakpoints are the lines verified. -/
def shownBps (d : Dbg) (w : Vm) (src : Source) (lns : List Int) : List Bp :=
  lns.map fun ln =>
    { id := ln - d.lz, verified := w.breakpoints.any fun k => (k : Int) = ln - d.lz,
      line := ln - d.lz + d.lz, source := src }

/-- `dbg.handle` (dbg.go:305-740) on everything but `continue` with a machine, see `Handles`.
`Vm.Step` may not return; that is `none`.  Writing to the client is taken to succeed. -/
def Dbg.handle (env : Env) (d : Dbg) (m : Msg) : Option Outcome :=
  match m.cmd with
  | .initialize none => some { outs := [], next := none }
  | .initialize (some (lines, cols)) =>
    let d := { d with lz := if lines = some false then d.lz else 1,
                      cz := if cols = some false then d.cz else 1 }
    some (d.replyNotify m.seq .capabilities .initialized)
  | .launch none _ => some { outs := [], next := none }
  | .launch (some _) none => some { outs := [], next := some d }
  | .launch (some name) (some src) =>
    match process env src with
    | none => some { outs := [], next := none }
    | some res =>
      let v := Vm.new res.listing res.version
      let d := { d with vm := some { tvm := v, name := name } }
      let r := d.reply m.seq .empty
      let p := r.1.notify (.process name)
      let s := p.1.notify (.stopped .entry (branchId v) [])
      some { outs := [r.2, p.2, s.2], next := some s.1 }
  | .plain name => if name ∈ plainCommands then some (d.replies m.seq .empty) else some { outs := [], next := some d }
  | .setBreakpoints args =>
    match d.vm with
    | none => some (d.replies m.seq (.breakpoints []))
    | some mc =>
      match args with
      | none => some { outs := [], next := none }
      | some (src, lns) =>
        match mc.tvm.setBreakpoints (lns.map (· - d.lz)) with
        | none => some { outs := [], next := none }
        | some w => some ({ d with vm := some { mc with tvm := w } }.replies m.seq (.breakpoints (shownBps d w src lns)))
  | .threads => some (d.replies m.seq (.threads (match d.vm with
      | none => []
      | some mc => mc.tvm.branches.map (·.id))))
  | .pause =>
    match d.vm with
    | none => some (d.replyPanic m.seq .empty)
    | some mc => some (d.replyNotify m.seq .empty (.stopped .pause (branchId mc.tvm) []))
  | .continue_ _ => some (d.replies m.seq .continued)
  | .next args =>
    match d.vm with
    | none => some (d.replyPanic m.seq .empty)
    | some mc =>
      match args with
      | none => some (d.replyPanic m.seq .empty)
      | some id =>
        match (switchTo mc.tvm id).step with
        | none => none
        | some w =>
          let d := { d with vm := some { mc with tvm := w } }
          match w.error with
          | some _ => some (d.replyNotify m.seq .empty (.stopped .exception none []))
          | none => some (d.replyNotify m.seq .empty (.stopped .step (branchId w) []))
  | .variables none => some { outs := [], next := none }
  | .variables (some a) =>
    match variables d.vm a with
    | none => some { outs := [], next := none }
    | some vs => some (d.replies m.seq (.variables vs))
  | .scopes args =>
    match d.vm, args with
    | none, _ => some (d.replies m.seq (.scopes []))
    | some _, none => some { outs := [], next := none }
    | some _, some f => some (d.replies m.seq (.scopes (scopes d.vm f)))
  | .stackTrace args =>
    match d.vm, args with
    | none, _ => some (d.replies m.seq (.frames [] 1))
    | some _, none => some { outs := [], next := none }
    | some _, some t => some (d.replies m.seq (.frames (frames d t) 1))
  | .other => some { outs := [], next := some d }

/-- `HitBreakpointIds` (dbg.go:513): the lines triggered by the branch `t`. -/
def hits (w : Vm) (t : Nat) : List Nat := (w.triggered.filter fun p => p.1 = t).map (·.2)

/-- The case `continue` with a machine, once `Run` returned in the state `w` (dbg.go:490-523).  If
several branches triggered breakpoints, the one to report is taken from a map, so any can be. -/
inductive Continued (d : Dbg) (seq : Int) (mc : Machine) (w : Vm) (thread : Option Int) : Outcome → Prop
  | failed (e : VmErr) : w.error = some e →
      Continued d seq mc w thread ({ d with vm := some { mc with tvm := w } }.replyNotify seq .continued
        (.stopped .exception none []))
  | crashed : w.error = none → w.triggered ≠ [] → thread = none →
      Continued d seq mc w thread (d.replyPanic seq .continued)
  | hit (t : Nat) (th : Int) : w.error = none → thread = some th → t ∈ w.triggered.map (·.1) →
      ((∃ t' ∈ w.triggered.map (·.1), (t' : Int) = th) → (t : Int) = th) →
      Continued d seq mc w thread ({ d with vm := some { mc with tvm := w } }.replyNotify seq .continued
        (.stopped .breakpoint (some t) (hits w t)))
  | ended : w.error = none → w.triggered = [] → w.branch = none →
      Continued d seq mc w thread ({ d with vm := some { mc with tvm := w } }.replyNotify seq .continued
        (.stopped .breakpoint none []))
  | running : w.error = none → w.triggered = [] → w.branch ≠ none →
      Continued d seq mc w thread ({ d with vm := some { mc with tvm := w } }.replies seq .continued)

/-- `dbg.handle` (dbg.go:305-740): what handling a message can do. -/
inductive Handles (env : Env) (d : Dbg) (m : Msg) : Outcome → Prop
  | plain {r : Outcome} : (d.vm = none ∨ ∀ a, m.cmd ≠ .continue_ a) → d.handle env m = some r → Handles env d m r
  | continue_ {r : Outcome} {mc : Machine} {w : Vm} (a : Option Int) : m.cmd = .continue_ a → d.vm = some mc →
      mc.tvm.Runs w → Continued d m.seq mc w a r → Handles env d m r

end Teal.Dap
