import Verif.Model.Wire
import Verif.Model.WireOut
import Verif.Model.Dap
import Verif.Model.Frame

/-!
# The messages of the debug adapter as JSON texts (`dbg/dbg.go`)

Decoding and encoding are those of `Model/Wire.lean` and `Model/WireOut.lean`.
-/

namespace Teal.DapWire

open Teal Teal.Wire Teal.Dap

/-- `dapHeader` (dbg.go:82-85). -/
structure Header where
  seq : Int := 0
  type : Bytes := []

def headerFields : List (Field Header) := [
  (b!"seq", fun h j => (int h.seq j).map fun v => { h with seq := v }),
  (b!"type", fun h j => (string h.type j).map fun v => { h with type := v })]

def header : Dec Header := struct headerFields

/-- `read` of a `dapRequestHeader` (dbg.go:87-89, 284-293). -/
def commandName (j : Json) : Option Bytes := struct [(b!"command", string)] [] j

/-- `read` of a `dapRequest` (dbg.go:91-93, 284-293) with a pointer to the arguments. -/
def arguments {α : Type} (zero : α) (d : Dec α) (j : Json) : Option (Option α) := struct [(b!"arguments", ptr zero d)] none j

/-- `dapInitializeRequestParams` (dbg.go:95-102). -/
structure Init where
  clientID : Bytes := []
  clientName : Bytes := []
  adapterID : Bytes := []
  lines : Option Bool := none
  columns : Option Bool := none
  pathFormat : Bytes := []

def initFields : List (Field Init) := [
  (b!"clientID", fun d j => (string d.clientID j).map fun v => { d with clientID := v }),
  (b!"clientName", fun d j => (string d.clientName j).map fun v => { d with clientName := v }),
  (b!"adapterID", fun d j => (string d.adapterID j).map fun v => { d with adapterID := v }),
  (b!"linesStartAt1", fun d j => (ptr false bool d.lines j).map fun v => { d with lines := v }),
  (b!"columnsStartAt1", fun d j => (ptr false bool d.columns j).map fun v => { d with columns := v }),
  (b!"pathFormat", fun d j => (string d.pathFormat j).map fun v => { d with pathFormat := v })]

def init : Dec Init := struct initFields

/-- `dapLaunchRequestParams` (dbg.go:104-106). -/
def launch : Dec Bytes := struct [(b!"program", string)]

/-- `dapStackTraceRequestParams` (dbg.go:108-112). -/
structure Trace where
  threadId : Int := 0
  startFrame : Option Int := none
  levels : Option Int := none

def traceFields : List (Field Trace) := [
  (b!"threadId", fun d j => (int d.threadId j).map fun v => { d with threadId := v }),
  (b!"startFrame", fun d j => (ptr 0 int d.startFrame j).map fun v => { d with startFrame := v }),
  (b!"levels", fun d j => (ptr 0 int d.levels j).map fun v => { d with levels := v })]

def trace : Dec Trace := struct traceFields

/-- `dapScopesRequestParams` (dbg.go:129-131). -/
def frameId : Dec Int := struct [(b!"frameId", int)]

/-- `dapVariablesRequestParams` (dbg.go:133-137). -/
def varsFields : List (Field VarArgs) := [
  (b!"variablesReference", fun d j => (int d.ref j).map fun v => { d with ref := v }),
  (b!"start", fun d j => (ptr 0 int d.start j).map fun v => { d with start := v }),
  (b!"count", fun d j => (ptr 0 int d.count j).map fun v => { d with count := v })]

def vars : Dec VarArgs := struct varsFields

/-- `dapNextRequestParams` (dbg.go:160-164). -/
structure Next where
  threadId : Int := 0
  singleThread : Option Bool := none
  granularity : Bytes := []

def nextFields : List (Field Next) := [
  (b!"threadId", fun d j => (int d.threadId j).map fun v => { d with threadId := v }),
  (b!"singleThread", fun d j => (ptr false bool d.singleThread j).map fun v => { d with singleThread := v }),
  (b!"granularity", fun d j => (string d.granularity j).map fun v => { d with granularity := v })]

def next : Dec Next := struct nextFields

/-- `dapContinueRequestParams` (dbg.go:166-168). -/
def threadId : Dec Int := struct [(b!"threadId", int)]

/-- `dapSource` (dbg.go:213-216). -/
def sourceFields : List (Field Source) := [
  (b!"name", fun d j => (string d.name j).map fun v => { d with name := v }),
  (b!"path", fun d j => (string d.path j).map fun v => { d with path := v })]

def source : Dec Source := struct sourceFields

/-- `dapSourceBreakpoint` (dbg.go:209-211). -/
def line : Dec Int := struct [(b!"line", int)]

/-- `dapSetBreakpointsRequestParams` (dbg.go:218-221). -/
def breakpointsFields : List (Field (Source × List Int)) := [
  (b!"source", fun d j => (source d.1 j).map fun v => (v, d.2)),
  (b!"breakpoints", fun d j => (slice 0 line d.2 j).map fun v => (d.1, v))]

def breakpoints : Dec (Source × List Int) := struct breakpointsFields

/-- A command with arguments; if they cannot be decoded it has no effect (the lines `return err`). -/
def withArgs {α : Type} (zero : α) (d : Dec α) (j : Json) (f : Option α → Command) : Command :=
  match arguments zero d j with
  | none => .other
  | some a => f a

/-- What `handle` reads for a command (dbg.go:313-740).  `file` is what `os.ReadFile` returns at that
time. -/
def command (file : Bytes → Option Bytes) (name : Bytes) (j : Json) : Command :=
  if name = b!"initialize" then withArgs {} init j fun a => .initialize (a.map fun d => (d.lines, d.columns))
  else if name = b!"launch" then withArgs [] launch j fun a => .launch a (a.bind file)
  else if name ∈ plainCommands then .plain name
  else if name = b!"setBreakpoints" then withArgs (⟨[], []⟩, []) breakpoints j .setBreakpoints
  else if name = b!"threads" then .threads
  else if name = b!"pause" then .pause
  else if name = b!"continue" then withArgs 0 threadId j .continue_
  else if name = b!"next" then withArgs {} next j fun a => .next (a.map (·.threadId))
  else if name = b!"variables" then withArgs ⟨0, none, none⟩ vars j .variables
  else if name = b!"scopes" then withArgs 0 frameId j .scopes
  else if name = b!"stackTrace" then withArgs {} trace j fun a => .stackTrace (a.map (·.threadId))
  else .other

/-- A message from the body of a frame (dbg.go:817-826, 305-313), with the name of the command. -/
def message (file : Bytes → Option Bytes) (s : Bytes) : Bytes × Msg :=
  match Json.parse s with
  | none => ([], ⟨0, .other⟩)
  | some j =>
    match header {} j with
    | none => ([], ⟨0, .other⟩)
    | some h =>
      if h.type = b!"request" then
        match commandName j with
        | none => ([], ⟨h.seq, .other⟩)
        | some name => (name, ⟨h.seq, command file name j⟩)
      else ([], ⟨h.seq, .other⟩)

/-- `dapSource` (dbg.go:213-216). -/
def sourceOut (s : Source) : Json := .obj (nonempty b!"name" s.name ++ nonempty b!"path" s.path)

/-- `dapBreakpoint` (dbg.go:223-229) as it is filled in dbg.go:424-429. -/
def bpOut (b : Bp) : Json :=
  .obj [(b!"id", num b.id), (b!"verified", .bool b.verified), (b!"source", sourceOut b.source), (b!"line", num b.line)]

/-- `dapThread` (dbg.go:231-234) as it is filled in dbg.go:450-453. -/
def threadOut (id : Nat) : Json := .obj [(b!"id", num id), (b!"name", .str (b!"Branch " ++ formatUint id))]

/-- `dapVariable` (dbg.go:143-147). -/
def variableOut (v : Nat × Shown) : Json :=
  .obj [(b!"name", .str (v.2.label v.1)), (b!"value", .str v.2.text), (b!"variablesReference", num 0)]

/-- `dapScope` (dbg.go:153-158). -/
def scopeOut (s : Scope) : Json :=
  .obj ([(b!"name", .str s.name), (b!"variablesReference", num s.ref)] ++
    (match s.indexed with
      | some n => [(b!"indexedVariables", num n)]
      | none => []) ++ [(b!"expensive", .bool false)])

/-- `dapStackFrame` (dbg.go:114-122) as it is filled in dbg.go:700-708, 714-722. -/
def frameOut (f : Frame) : Json :=
  .obj [(b!"id", num f.id), (b!"name", .str f.name), (b!"source", sourceOut f.source), (b!"line", num f.line), (b!"column", num f.column)]

/-- The words for reasons (dbg.go:379, 472, 497, 510, 519, 549, 559). -/
def reasonOut : Reason → Bytes
  | .entry => b!"entry"
  | .pause => b!"pause"
  | .exception => b!"exception"
  | .breakpoint => b!"breakpoint"
  | .step => b!"step"

/-- The body of a message, unless it is nil.  `description` is the text of an error. -/
def bodyOut (description : Bytes) : Payload → Option Json
  | .empty => none
  | .capabilities => some (.obj [(b!"supportsConfigurationDoneRequest", .bool true)])
  | .breakpoints bs => some (.obj [(b!"breakpoints", .arr (bs.map bpOut))])
  | .threads ids => some (.obj [(b!"threads", .arr (ids.map threadOut))])
  | .continued => some (.obj [(b!"allThreadsContinued", .bool true)])
  | .variables vs => some (.obj [(b!"variables", .arr (vs.map variableOut))])
  | .scopes ss => some (.obj [(b!"scopes", .arr (ss.map scopeOut))])
  | .frames fs n => some (.obj [(b!"stackFrames", .arr (fs.map frameOut)), (b!"totalFrames", num n)])
  | .initialized => none
  | .process name => some (.obj [(b!"name", .str name), (b!"startMethod", .str b!"launch")])
  | .stopped r t hs => some (.obj ([(b!"reason", .str (reasonOut r))] ++
      (if r = .exception then nonempty b!"description" (b!"Error: " ++ description) else []) ++
      (match t with
        | some t => [(b!"threadId", num t)]
        | none => []) ++ [(b!"allThreadsStopped", .bool true)] ++
      if hs = [] then [] else [(b!"hitBreakpointIds", .arr (hs.map fun (n : Nat) => num n))]))

/-- The names of events (dbg.go:334, 364, 378 and others). -/
def eventName : Payload → Bytes
  | .initialized => b!"initialized"
  | .process _ => b!"process"
  | _ => b!"stopped"

/-- `dapResponse` (dbg.go:187-195) as `reply` fills it (dbg.go:271-282) and `dapEvent` (dbg.go:236-241)
as `notify` does (dbg.go:295-303), while the command `name` is handled. -/
def sentOut (name description : Bytes) (s : Sent) : Json :=
  let body := match bodyOut description s.body with
    | some b => [(b!"body", b)]
    | none => []
  match s.response with
  | some (seq, ok) => .obj ([(b!"seq", num s.seq), (b!"type", .str b!"response"), (b!"request_seq", num seq),
      (b!"success", .bool ok), (b!"command", .str name)] ++ body)
  | none => .obj ([(b!"seq", num s.seq), (b!"type", .str b!"event"), (b!"event", .str (eventName s.body))] ++ body)

/-- The rounds of the loop of `Run` (dbg.go:787-845) with the bodies of frames, and what is written.
`files i` is the file system when body `i` is handled; `texts n` is the text of the error if message
number `n` tells of one. -/
inductive Serves (env : Env) (files : Nat → Bytes → Option Bytes) (texts : Nat → Bytes) : List Bytes → Bytes → Option Dbg → Prop
  | new : Serves env files texts [] [] (some Dbg.new)
  | body {bs : List Bytes} {out : Bytes} {d : Dbg} (b : Bytes) {r : Outcome} : Serves env files texts bs out (some d) →
      Handles env d (message (files bs.length) b).2 r →
      Serves env files texts (bs ++ [b]) (out ++ r.outs.flatMap fun o =>
        Frame.writeFrame (sentOut (message (files bs.length) b).1 (texts o.seq) o).text) r.next

/-- `Run` on a stream: it ends with the stream, or with a panic in a round. -/
inductive Debugs (env : Env) (files : Nat → Bytes → Option Bytes) (texts : Nat → Bytes) (input out : Bytes) : Option Dbg → Prop
  | ended {d : Option Dbg} : Serves env files texts (Frame.bodies input).1 out d → (Frame.bodies input).2 = false →
      Debugs env files texts input out d
  | crashed {bs rest : List Bytes} : (Frame.bodies input).1 = bs ++ rest → Serves env files texts bs out none →
      Debugs env files texts input out none
  /-- a negative length -/
  | refused {d : Dbg} : Serves env files texts (Frame.bodies input).1 out (some d) → (Frame.bodies input).2 = true →
      Debugs env files texts input out none

end Teal.DapWire
