import Verif.Spec.Wire
import Verif.Spec.WireOut
import Verif.Spec.Dap

/-!
# Specification: the messages of the debug adapter protocol as JSON values

Written from the protocol (DAP 1.6x).  The program to launch is in the member `program` of the
arguments of `launch`, as the documentation of the adapter has it.
-/

namespace Teal.DapSpec

open Teal Teal.Spec Teal.JsonSpec Teal.WireSpec Teal.Dap

/-- An optional member: `none` if it is absent or `null`. -/
def Perhaps {α : Type} (ms : List (Bytes × Json)) (k : Bytes) (P : α → Json → Prop) : Option α → Prop
  | none => May ms k fun _ => False
  | some a => Has ms k (P a)

/-- An optional string; there is no difference between an empty and an absent one. -/
def Text (ms : List (Bytes × Json)) (k s : Bytes) : Prop := (s = [] ∧ May ms k fun _ => False) ∨ Has ms k (IsStr s)

/-- `InitializeRequestArguments`. -/
def IsInit (lines columns : Option Bool) : Json → Prop :=
  IsObj fun ms => May ms b!"clientID" Str ∧ May ms b!"clientName" Str ∧ Has ms b!"adapterID" Str ∧
    Perhaps ms b!"linesStartAt1" Yes lines ∧ Perhaps ms b!"columnsStartAt1" Yes columns ∧ May ms b!"pathFormat" Str

/-- `Source`. -/
def IsSource (s : Source) : Json → Prop := IsObj fun ms => Text ms b!"name" s.name ∧ Text ms b!"path" s.path

/-- `SourceBreakpoint`. -/
def IsLine (l : Int) : Json → Prop := IsObj fun ms => Has ms b!"line" (IsInt l)

/-- `SetBreakpointsArguments`. -/
def IsBreakpoints (s : Source) (ls : List Int) : Json → Prop :=
  IsObj fun ms => Has ms b!"source" (IsSource s) ∧
    (ls = [] ∧ May ms b!"breakpoints" (fun _ => False) ∨ Has ms b!"breakpoints" (IsArr (ls.map IsLine)))

/-- The commands the adapter knows. -/
def commands : List Bytes :=
  [b!"initialize", b!"launch", b!"disconnect", b!"evaluate", b!"setFunctionBreakpoints", b!"setInstructionBreakpoints",
   b!"setExceptionBreakpoints", b!"configurationDone", b!"setBreakpoints", b!"threads", b!"pause", b!"continue", b!"next",
   b!"variables", b!"scopes", b!"stackTrace"]

/-- `Calls file c name ms`: a request with the command `name` and the members `ms` asks for `c`, if
`file` are the files there are. -/
inductive Calls (file : Bytes → Option Bytes) : Command → Bytes → List (Bytes × Json) → Prop
  | «initialize» {ms : List (Bytes × Json)} {lines columns : Option Bool} : Has ms b!"arguments" (IsInit lines columns) →
      Calls file (.initialize (some (lines, columns))) b!"initialize" ms
  | launch {ms : List (Bytes × Json)} {program : Bytes} : Has ms b!"arguments" (IsObj fun as => Has as b!"program" (IsStr program)) →
      Calls file (.launch (some program) (file program)) b!"launch" ms
  | plain {ms : List (Bytes × Json)} {name : Bytes} : name ∈ [b!"disconnect", b!"evaluate", b!"setFunctionBreakpoints",
        b!"setInstructionBreakpoints", b!"setExceptionBreakpoints", b!"configurationDone"] → Calls file (.plain name) name ms
  | setBreakpoints {ms : List (Bytes × Json)} {s : Source} {ls : List Int} : Has ms b!"arguments" (IsBreakpoints s ls) →
      Calls file (.setBreakpoints (some (s, ls))) b!"setBreakpoints" ms
  | threads {ms : List (Bytes × Json)} : Calls file .threads b!"threads" ms
  | pause {ms : List (Bytes × Json)} : Calls file .pause b!"pause" ms
  | continue_ {ms : List (Bytes × Json)} {t : Int} : Has ms b!"arguments" (IsObj fun as => Has as b!"threadId" (IsInt t)) →
      Calls file (.continue_ (some t)) b!"continue" ms
  | next {ms : List (Bytes × Json)} {t : Int} : Has ms b!"arguments" (IsObj fun as => Has as b!"threadId" (IsInt t) ∧
        May as b!"singleThread" (fun j => ∃ b, Yes b j) ∧ May as b!"granularity" Str) → Calls file (.next (some t)) b!"next" ms
  | variables {ms : List (Bytes × Json)} {a : VarArgs} : Has ms b!"arguments" (IsObj fun as => Has as b!"variablesReference" (IsInt a.ref) ∧
        Perhaps as b!"start" IsInt a.start ∧ Perhaps as b!"count" IsInt a.count) → Calls file (.variables (some a)) b!"variables" ms
  | scopes {ms : List (Bytes × Json)} {f : Int} : Has ms b!"arguments" (IsObj fun as => Has as b!"frameId" (IsInt f)) →
      Calls file (.scopes (some f)) b!"scopes" ms
  | stackTrace {ms : List (Bytes × Json)} {t : Int} : Has ms b!"arguments" (IsObj fun as => Has as b!"threadId" (IsInt t) ∧
        May as b!"startFrame" Int' ∧ May as b!"levels" Int') → Calls file (.stackTrace (some t)) b!"stackTrace" ms
  | unknown {ms : List (Bytes × Json)} {name : Bytes} : name ∉ commands → Calls file .other name ms

/-- `Asks file j seq name c`: the JSON value is a request with the number `seq` and the command `name`
that asks for `c`. -/
def Asks (file : Bytes → Option Bytes) (j : Json) (seq : Int) (name : Bytes) (c : Command) : Prop :=
  ∃ ms, j = .obj ms ∧ Has ms b!"seq" (IsInt seq) ∧ Has ms b!"type" (IsStr b!"request") ∧ Has ms b!"command" (IsStr name) ∧
    Calls file c name ms

/-- `Breakpoint`. -/
def SeesBp (b : Bp) : Json → Prop :=
  IsObj fun ms => Has ms b!"id" (Integer b.id) ∧ Has ms b!"verified" (Yes b.verified) ∧ Has ms b!"source" (IsSource b.source) ∧
    Has ms b!"line" (Integer b.line)

/-- `Thread`: branches are the threads. -/
def SeesThread (id : Nat) : Json → Prop :=
  IsObj fun ms => Has ms b!"id" (Integer id) ∧ Has ms b!"name" fun j => ∃ d, DecimalOf id d ∧ j = .str (b!"Branch " ++ d)

/-- `Variable` with a name and a value, and nothing in it. -/
def SeesVariable (v : Bytes × Bytes) : Json → Prop :=
  IsObj fun ms => Has ms b!"name" (IsStr v.1) ∧ Has ms b!"value" (IsStr v.2) ∧ Has ms b!"variablesReference" (Integer 0)

/-- `Scope`. -/
def SeesScope (s : Scope) : Json → Prop :=
  IsObj fun ms => Has ms b!"name" (IsStr s.name) ∧ Has ms b!"variablesReference" (Integer s.ref) ∧ Has ms b!"expensive" (Yes false) ∧
    match s.indexed with
    | some n => Has ms b!"indexedVariables" (Integer n)
    | none => Lacks ms b!"indexedVariables"

/-- `StackFrame`. -/
def SeesFrame (f : Dap.Frame) : Json → Prop :=
  IsObj fun ms => Has ms b!"id" (Integer f.id) ∧ Has ms b!"name" (IsStr f.name) ∧ Has ms b!"source" (IsSource f.source) ∧
    Has ms b!"line" (Integer f.line) ∧ Has ms b!"column" (Integer f.column)

/-- The words of the protocol for reasons. -/
def reason : Reason → Bytes
  | .entry => b!"entry"
  | .pause => b!"pause"
  | .exception => b!"exception"
  | .breakpoint => b!"breakpoint"
  | .step => b!"step"

/-- The commands that are answered with a body that has members, though it is only announced that
they were done here. -/
def demanding : List Bytes := [b!"evaluate", b!"setFunctionBreakpoints", b!"setInstructionBreakpoints"]

/-- `SeesBody command p ms`: the member `body` of a response to the command, or of an event. -/
def SeesBody (command : Option Bytes) (p : Payload) (ms : List (Bytes × Json)) : Prop :=
  match p with
  | .empty => Lacks ms b!"body" ∧ ∀ c, command = some c → c ∉ demanding
  | .initialized => Lacks ms b!"body"
  | .capabilities => Has ms b!"body" (IsObj fun bs => Has bs b!"supportsConfigurationDoneRequest" (Yes true) ∧
      ∀ m ∈ bs, m.1 = b!"supportsConfigurationDoneRequest")
  | .breakpoints xs => Has ms b!"body" (IsObj fun bs => Has bs b!"breakpoints" (IsArr (xs.map SeesBp)))
  | .threads ids => Has ms b!"body" (IsObj fun bs => Has bs b!"threads" (IsArr (ids.map SeesThread)))
  | .continued => Has ms b!"body" (IsObj fun bs => Has bs b!"allThreadsContinued" (Yes true))
  | .variables vs => Has ms b!"body" (IsObj fun bs => Has bs b!"variables" (IsArr ((wireVars vs).map SeesVariable)))
  | .scopes ss => Has ms b!"body" (IsObj fun bs => Has bs b!"scopes" (IsArr (ss.map SeesScope)))
  | .frames fs n => Has ms b!"body" (IsObj fun bs => Has bs b!"stackFrames" (IsArr (fs.map SeesFrame)) ∧ Has bs b!"totalFrames" (Integer n))
  | .process name => Has ms b!"body" (IsObj fun bs => Has bs b!"name" (IsStr name) ∧ Has bs b!"startMethod" (IsStr b!"launch"))
  | .stopped r t hs => Has ms b!"body" (IsObj fun bs => Has bs b!"reason" (IsStr (reason r)) ∧
      (if r = .exception then Has bs b!"description" Str else Lacks bs b!"description") ∧
      (match t with
        | some t => Has bs b!"threadId" (Integer t)
        | none => Lacks bs b!"threadId") ∧ Has bs b!"allThreadsStopped" (Yes true) ∧
      if hs = [] then Lacks bs b!"hitBreakpointIds" else Has bs b!"hitBreakpointIds" (IsArr (hs.map fun (n : Nat) => Integer n)))

/-- The name of an event. -/
def event : Payload → Option Bytes
  | .initialized => some b!"initialized"
  | .process _ => some b!"process"
  | .stopped _ _ _ => some b!"stopped"
  | _ => none

/-- `Sees command s j`: the JSON value is the message `s`; if it is a response, to the command. -/
def Sees (command : Bytes) (s : Sent) : Json → Prop :=
  IsObj fun ms => Has ms b!"seq" (Integer s.seq) ∧
    match s.response with
    | some (seq, ok) => Has ms b!"type" (IsStr b!"response") ∧ Has ms b!"request_seq" (Integer seq) ∧ Has ms b!"success" (Yes ok) ∧
        Has ms b!"command" (IsStr command) ∧ SeesBody (some command) s.body ms
    | none => Has ms b!"type" (IsStr b!"event") ∧ (∃ e, event s.body = some e ∧ Has ms b!"event" (IsStr e)) ∧ SeesBody none s.body ms

/-- The JSON value is a message that is no request: an event or a response. -/
def NoRequest : Json → Prop :=
  IsObj fun ms => Has ms b!"seq" Int' ∧ ∃ type, Has ms b!"type" (IsStr type) ∧ type ≠ b!"request"

/-- A frame a client sends: the header fields, the body, and the number, the name of the command and
what is asked for, unless the body is not JSON or no request. -/
abbrev Frame := List (Bytes × Bytes) × Bytes × Option (Int × Bytes × Command)

/-- The body is what the rest says. -/
def Frame.Right (file : Bytes → Option Bytes) (f : DapSpec.Frame) : Prop :=
  match f.2.2 with
  | some (seq, name, c) => ∃ n j, n ≤ 10000 ∧ Spells n f.2.1 j ∧ Asks file j seq name c
  | none => (¬ ∃ j, SpellsLoosely 10000 f.2.1 j) ∨ ∃ n j, n ≤ 10000 ∧ Spells n f.2.1 j ∧ NoRequest j

/-- The message in it; one without an effect if it is not JSON or no request. -/
def Frame.msg (f : DapSpec.Frame) : Msg :=
  match f.2.2 with
  | some (seq, _, c) => ⟨seq, c⟩
  | none => ⟨0, .other⟩

/-- A body written: a JSON text of the message, with replacement characters where strings are not
UTF-8. -/
def Shows (command : Bytes) (s : Sent) (body : Bytes) : Prop := ∃ j k n, Sees command s j ∧ RepairedIn j k ∧ Spells n body k

end Teal.DapSpec
