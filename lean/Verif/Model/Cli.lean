import Verif.Model.Frame
import Verif.Model.Wire
import Verif.Model.WireOut
import Verif.Model.SarifOut

/-!
# The command lines of the tools (`cmd/tealsp/main.go`, `cmd/tealdbg/main.go`, `cmd/tealsarif/main.go`)

The words of a command line are those behind the name of the tool.  What the operating system answers
is a parameter.
-/

namespace Teal.Cli

/-- How `flag.Parse` ends, for flags that are all strings: with the values it sets, in order, by
printing a help text (status 0) or by an error (status 2). -/
inductive Parsed where
  | values (l : List (Bytes × Bytes))
  | help
  | wrong
deriving DecidableEq, Repr

/-- One more value in front. -/
def Parsed.add (n v : Bytes) : Parsed → Parsed
  | .values l => .values ((n, v) :: l)
  | p => p

/-- `FlagSet.Parse` and `parseOne` (flag/flag.go, Go's library) for string flags with the given names. -/
def parseFlags (names : List Bytes) : List Bytes → Parsed
  | [] => .values []
  | s :: rest =>
    match s with
    | 45 :: c :: t =>
      if c = 45 ∧ t = [] then .values []
      else
        let name := if c = 45 then t else c :: t
        if name.head? = some 45 ∨ name.head? = some 61 then .wrong
        else
          let n := name.takeWhile (· != 61)
          if n ∈ names then
            match name.dropWhile (· != 61) with
            | _ :: v => (parseFlags names rest).add n v
            | [] =>
              match rest with
              | [] => .wrong
              | v :: rest => (parseFlags names rest).add n v
          else if n = b!"help" ∨ n = b!"h" then .help
          else .wrong
    | _ => .values []

/-- The value of a flag: the one set last, or its default. -/
def valueOf (l : List (Bytes × Bytes)) (n default : Bytes) : Bytes :=
  ((l.reverse.find? (·.1 == n)).map (·.2)).getD default

/-- Which protocol is served. -/
inductive Protocol where
  | language
  | debug
deriving DecidableEq, Repr

/-- What a server does: the protocol, over a connection (network and address) or over standard input
and output, and the file it writes a trace to. -/
structure Serving where
  protocol : Protocol
  connection : Option (Bytes × Bytes)
  trace : Option Bytes
deriving DecidableEq, Repr

/-- The operating system: whether `net.Dial` succeeds and whether `os.Create` does. -/
structure World where
  dials : Bytes → Bytes → Bool
  creates : Bytes → Bool

/-- How a tool starts: it exits at once, panics, or serves. -/
inductive Start where
  | exits (status : Nat)
  | panics
  | serves (s : Serving)
deriving DecidableEq, Repr

/-- `a.Addr != "" && a.Net != ""` (cmd/tealsp/main.go:28, cmd/tealdbg/main.go:25). -/
def connectionOf (l : List (Bytes × Bytes)) : Option (Bytes × Bytes) :=
  if valueOf l b!"addr" [] ≠ [] ∧ valueOf l b!"net" b!"tcp" ≠ [] then some (valueOf l b!"net" b!"tcp", valueOf l b!"addr" []) else none

/-- `a.Debug != ""` (cmd/tealsp/main.go:42, 65, cmd/tealdbg/main.go:39), with the default of the flag. -/
def traceOf (l : List (Bytes × Bytes)) (default : Bytes) : Option Bytes :=
  if valueOf l b!"debug" default ≠ [] then some (valueOf l b!"debug" default) else none

/-- `runLsp`, `runDbg` (cmd/tealsp/main.go:24-81) and `run` (cmd/tealdbg/main.go:21-53) up to `Run`: connect,
create the file. `main` panics if that fails. -/
def begin (w : World) (s : Serving) : Start :=
  if (s.connection.all fun c => w.dials c.1 c.2) && s.trace.all w.creates then .serves s else .panics

/-- `flag.Parse` exits with these statuses (`flag.ExitOnError`). -/
def withFlags (names words : List Bytes) (f : List (Bytes × Bytes) → Start) : Start :=
  match parseFlags names words with
  | .values l => f l
  | .help => .exits 0
  | .wrong => .exits 2

/-- `main` of tealsp (cmd/tealsp/main.go:83-114). -/
def tealsp (w : World) (words : List Bytes) : Start :=
  if words.head? = some b!"dbg" then
    withFlags [b!"debug"] words.tail fun l => begin w ⟨.debug, none, traceOf l []⟩
  else withFlags [b!"net", b!"addr", b!"debug"] words fun l => begin w ⟨.language, connectionOf l, traceOf l []⟩

/-- `main` of tealdbg (cmd/tealdbg/main.go:55-71). -/
def tealdbg (w : World) (words : List Bytes) : Start :=
  withFlags [b!"net", b!"addr", b!"debug"] words fun l => begin w ⟨.debug, connectionOf l, traceOf l b!"E:/dbg.txt"⟩

/-- `main` of tealsarif (cmd/tealsarif/main.go:165-175): its exit status and what it prints.  `files p` is
the file system when the path to scan is `p`.  A panic exits with status 2; `Process` may have printed
something before that, which is left out. -/
def tealsarif (env : Env) (operand : Nat → Bytes) (files : Bytes → Sarif.Files) (words : List Bytes) : Nat × Bytes :=
  match parseFlags [b!"path"] words with
  | .values l =>
    match Sarif.scan env (files (valueOf l b!"path" [])) with
    | .report r => (0, Sarif.printed operand (.report r))
    | _ => (2, [])
  | .help => (0, [])
  | .wrong => (2, [])

/-- The exit status of the language server after a session (lsp.go:2163-2215, cmd/tealsp/main.go:107-112). -/
def status (s : Lsp.Session) : Nat := if s.crashed then 2 else s.st.exitCode

/-- What tealsp does as a process: its exit status and what it writes to standard output, for the words of
its command line and its standard input.  `none`: it does something else than serve the language server
protocol there. -/
def served (w : World) (h : Lsp.Host) (number : Bytes → Option Bytes) (choices : Nat → Lsp.Choice) (t : Wire.Texts)
    (words : List Bytes) (input : Bytes) : Option (Nat × Bytes) :=
  match tealsp w words with
  | .serves ⟨.language, none, _⟩ =>
    let s := Frame.serve h (Wire.message number) choices input
    some (status s, Frame.written (Wire.sent t) s)
  | _ => none

end Teal.Cli
