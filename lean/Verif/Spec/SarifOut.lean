import Verif.Spec.WireOut
import Verif.Spec.Sarif
import Verif.Spec.Message

/-!
# Specification: reports in the format SARIF 2.1.0
-/

namespace Teal.SarifSpec

open Teal Teal.Spec Teal.JsonSpec Teal.WireSpec Teal.Sarif

/-- What the rules check, in words. -/
def descriptions : List (Bytes × Bytes) :=
  [(b!"SYNTAX", b!"Syntax checks"), (b!"PARSE", b!"Parser checks"),
   (b!"LINT0001", b!"Checks for duplicate labels in a single TEAL source file"),
   (b!"LINT0002", b!"Checks for labels that are never referenced in the code"),
   (b!"LINT0003", b!"Checks for ops after an unconditional branch call"),
   (b!"LINT0004", b!"Checks for redundant branch calls that are placed just before their target labels"),
   (b!"LINT0005", b!"Checks infinite loops presence"), (b!"LINT0006", b!"Checks proper #pragma usage"),
   (b!"LINT0007", b!"Checks opcode availability in the current mode (app or logicsig)"),
   (b!"LINT0008", b!"Checks opcode is available in the current version")]

/-- `reportingDescriptor`. -/
def IsRule (id : Bytes) : Json → Prop :=
  IsObj fun ms => Has ms b!"id" (IsStr id) ∧
    Has ms b!"shortDescription" (IsObj fun ds => ∃ d, (id, d) ∈ descriptions ∧ Has ds b!"text" (IsStr d))

/-- The message for a finding: what it tells, with replacement characters for what is not UTF-8. -/
def IsMessage (k : DiagKind) : Json → Prop :=
  IsObj fun ms => Has ms b!"text" fun j => ∃ s, j = .str s ∧ ∀ m, Tells k m → Repaired m s

/-- `artifact`. -/
def IsArtifact (uri : Bytes) : Json → Prop := IsObj fun ms => Has ms b!"location" (IsObj fun ls => Has ls b!"uri" (IsStr uri))

/-- `physicalLocation`. -/
def IsPlace (x : Result) : Json → Prop :=
  IsObj fun ms => Has ms b!"artifactLocation" (IsObj fun as => Has as b!"uri" (IsStr x.uri) ∧ Has as b!"index" (Integer x.index)) ∧
    Has ms b!"region" (IsObj fun rs => Has rs b!"startLine" (Integer x.line) ∧ Has rs b!"startColumn" (Integer x.column))

/-- `result`. -/
def IsResult (x : Result) : Json → Prop :=
  IsObj fun ms => Has ms b!"ruleId" (IsStr x.rule) ∧ Has ms b!"level" (IsStr x.level) ∧
    Has ms b!"message" (IsMessage x.kind) ∧
    Has ms b!"locations" (IsArr [IsObj fun ls => Has ls b!"physicalLocation" (IsPlace x)])

/-- `run`. -/
def IsRun (r : Run) : Json → Prop :=
  IsObj fun ms => Has ms b!"tool" (IsObj fun ts => Has ts b!"driver" (IsObj fun ds =>
      Has ds b!"name" (IsStr b!"tealscan") ∧ Has ds b!"informationUri" Str ∧ Has ds b!"rules" (IsArr (r.rules.map IsRule)))) ∧
    Has ms b!"artifacts" (IsArr (r.artifacts.map IsArtifact)) ∧ Has ms b!"results" (IsArr (r.results.map IsResult))

/-- `sarifLog`. -/
def IsReport (r : Run) : Json → Prop :=
  IsObj fun ms => Has ms b!"version" (IsStr b!"2.1.0") ∧ Has ms b!"$schema" Str ∧ Has ms b!"runs" (IsArr [IsRun r])

end Teal.SarifSpec
