import Verif.Model.Tools
import Verif.Model.Build

/-!
# The experiments (`debug/scan/main.go`, `debug/translate/main.go`)

`scan` checks the programs of a chain; the node and the stream of blocks are not modelled, the blocks it delivers
are given.  `translate` turns the functions of a Go file into TEAL; what `go/ssa` makes of the file is given.  A panic
exits with status 2; what is printed to standard error is left out.
-/

namespace Teal.Cli

/-- A transaction, as far as it is looked at (debug/scan/main.go:56-62). -/
structure Txn where
  type : Bytes
  /-- the approval program; `none` for a nil slice -/
  approval : Option Bytes

/-- A block. -/
structure Block where
  round : Nat
  payset : List Txn

/-- What the node and the clock answer. -/
structure Node where
  /-- `TealDisassemble` (debug/scan/main.go:66): the text of the program, or the text of an error -/
  disassemble : Bytes → Except Bytes Bytes
  /-- the time printed for a block -/
  now : Nat → Bytes

/-- One line about a diagnostic (debug/scan/main.go:74). -/
def scanDiag (operand : Diag → Bytes) (round i : Nat) (d : Diag) : Bytes :=
  formatUint round ++ b!":" ++ formatUint i ++ b!":" ++ formatUint d.l ++ b!": " ++ d.kind.text (operand d) ++ b!"\n"

/-- One round of the inner loop (debug/scan/main.go:56-84); `none`: panic in `Process`.  What is printed before a panic is
left out. -/
def scanTxn (env : Env) (operand : Diag → Bytes) (node : Node) (round i : Nat) (tx : Txn) : Option Bytes :=
  if tx.type ≠ b!"appl" then some []
  else match tx.approval with
    | none => some []
    | some p =>
      match node.disassemble p with
      | .error e => some (b!"Program length: " ++ formatUint p.length ++ b!"\nFailed to process app - err: failed to disassemble: " ++ e ++ b!"\n")
      | .ok src =>
        (process env src).map fun r =>
          b!"Program length: " ++ formatUint p.length ++ b!"\n" ++ (r.diagnostics.map (scanDiag operand round i)).flatten

/-- The loop over the transactions of a block. -/
def scanTxns (env : Env) (operand : Diag → Bytes) (node : Node) (round : Nat) : Nat → List Txn → Option Bytes
  | _, [] => some []
  | i, tx :: txs =>
    match scanTxn env operand node round i tx with
    | none => none
    | some a => (scanTxns env operand node round (i + 1) txs).map (a ++ ·)

/-- The loop over the blocks (debug/scan/main.go:54-85): what is printed. -/
def scan (env : Env) (operand : Diag → Bytes) (node : Node) : List Block → Option Bytes
  | [] => some []
  | b :: bs =>
    match scanTxns env operand node b.round 0 b.payset with
    | none => none
    | some a => (scan env operand node bs).map fun c =>
        b!"Block: " ++ formatUint b.round ++ b!" at " ++ node.now b.round ++ b!"\n" ++ a ++ c

/-- A member of a package (`ssa.Member`). -/
inductive Member where
  | global (name : Bytes)
  | function (name : Bytes)
  | type (name : Bytes)
  | constant (name : Bytes)
deriving DecidableEq, Repr

/-- The loop over the members (debug/translate/main.go:361-384): what is printed and, unless it panics, the expressions.
The type of a global is a pointer, so that every global but `init$guard` panics.  `function` is `translateFunction`
(237-273), which panics (`none`) or returns one `FuncExpr`; what is in it is a parameter. -/
def translateMembers (function : Bytes → Option (Bytes × Nat × Nat × List Build.Code)) : List Member → Bytes × Option (List Build.Code)
  | [] => ([], some [])
  | .global name :: ms => if name = b!"init$guard" then translateMembers function ms else ([], none)
  | .function name :: ms =>
    if name = b!"init" then translateMembers function ms
    else match function name with
      | none => ([], none)
      | some (l, args, results, body) =>
        let r := translateMembers function ms
        (r.1, r.2.map (.func l args results body :: ·))
  | .type name :: ms =>
    let r := translateMembers function ms
    (b!"type " ++ name ++ b!"\n" ++ r.1, r.2)
  | .constant _ :: ms => translateMembers function ms

/-- `run` and `main` (debug/translate/main.go:338-409) for a file of which `ms` are the members, in the order in which the
map is iterated; `none` if it cannot be read, parsed or checked.  The exit status and what is printed. -/
def translate (function : Bytes → Option (Bytes × Nat × Nat × List Build.Code)) : Option (List Member) → Nat × Bytes
  | none => (2, [])
  | some ms =>
    match translateMembers function ms with
    | (out, none) => (2, out)
    | (out, some body) =>
      match Build.programString body with
      | none => (2, out)
      | some s => (0, out ++ s ++ b!"\n")

end Teal.Cli
