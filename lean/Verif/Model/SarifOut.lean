import Verif.Model.Sarif
import Verif.Model.WireOut
import Verif.Model.Message

/-!
# The text of the scanner's report (`cmd/tealsarif/main.go`, `internal/sarif/sarif.go`)

The messages about operands are parameters: `operand i` is the message of the `i`-th result if it is
about an operand.
-/

namespace Teal.Sarif

open Teal.Wire (num)

/-- `sarif.Rule` (sarif.go:63-68) as it is filled in main.go:43-65. -/
def ruleOut (id : Bytes) : Json :=
  .obj [(b!"id", .str id), (b!"shortDescription", .obj [(b!"text", .str ((ruleTable.lookup id).getD []))])]

/-- `sarif.Artifact` (sarif.go:48-54). -/
def artifactOut (uri : Bytes) : Json := .obj [(b!"location", .obj [(b!"uri", .str uri)])]

/-- `sarif.Result` (sarif.go:15-46) as it is filled in main.go:127-147. -/
def resultOut (operand : Bytes) (r : Result) : Json :=
  .obj [(b!"level", .str r.level), (b!"message", .obj [(b!"text", .str (r.kind.text operand))]),
    (b!"locations", .arr [.obj [(b!"physicalLocation", .obj [
      (b!"artifactLocation", .obj [(b!"uri", .str r.uri), (b!"index", num r.index)]),
      (b!"region", .obj [(b!"startLine", num r.line), (b!"startColumn", num r.column)])])]]),
    (b!"ruleId", .str r.rule)]

/-- `sarif.Results` with its one run (sarif.go:3-13, 56-62, main.go:37-41, 67-77, 151). -/
def reportOut (operand : Nat → Bytes) (r : Run) : Json :=
  .obj [(b!"version", .str b!"2.1.0"), (b!"$schema", .str b!"http://json.schemastore.org/sarif-2.1.0-rtm.4"),
    (b!"runs", .arr [.obj [
      (b!"tool", .obj [(b!"driver", .obj [(b!"name", .str b!"tealscan"), (b!"informationUri", .str b!"https://github.com/dragmz/teal"),
        (b!"rules", .arr (r.rules.map ruleOut))])]),
      (b!"artifacts", .arr (r.artifacts.map artifactOut)),
      (b!"results", .arr (r.results.zipIdx.map fun x => resultOut (operand x.2) x.1))]])]

/-- What is printed (main.go:153-158); nothing if the scan fails. -/
def printed (operand : Nat → Bytes) : Scan → Bytes
  | .report r => Json.indented b!"\t" (reportOut operand r) ++ b!"\n"
  | _ => []

end Teal.Sarif
