import Verif.Model.DapWire

/-!
# Model: the texts of the machine's errors

`Step` keeps what was passed to `panic` in `Vm.Error` (vm.go:430-437), and the debugger writes it with
`fmt.Sprintf("Error: %s", …)` (dbg/dbg.go:493-499, 544-550).
-/

namespace Teal

/-- `VmDataType.String` (vm.go:126-137). -/
def StackType.text : StackType → Bytes
  | .any => b!"any"
  | .uint64 => b!"uint64"
  | .bytes => b!"bytes"
  | .none => b!"(none)"

/-- The texts of the values passed to `panic` (vm.go:219, 230; expr.go:1027, 2290 and others).  The texts of Go's
own errors are not modelled: `runtime`. -/
def VmErr.text (runtime : Bytes) : VmErr → Bytes
  | .emptyStack t => b!"empty stack - expected: " ++ t.text
  | .wrongType t u => b!"unexpected data type on stack - expected: " ++ t.text ++ b!", got: " ++ u.text
  | .index => runtime
  | .unknownField => b!"unknown field"
  | .notSupported => b!"not supported"

/-- `l.vm.tvm.Error` as a text, after a request was handled (dbg/dbg.go:497, 548). -/
def Dap.errorText (runtime : Bytes) (next : Option Dap.Dbg) : Bytes :=
  match next.bind fun d => d.vm.bind fun mc => mc.tvm.error with
  | some e => e.text runtime
  | none => []

end Teal
