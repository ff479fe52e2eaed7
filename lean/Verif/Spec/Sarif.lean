import Verif.Model.Sarif

/-!
# Specification: the scanner's report
-/

namespace Teal.Spec

open Teal Teal.Sarif

/-- The files to scan: the file itself, or all files in the directory, at any depth, whose name ends
with `.teal`, in the order they are found. -/
inductive ToScan : Root → List Bytes → Prop
  | file (p : Bytes) : ToScan (.file p) [p]
  | empty : ToScan (.dir []) []
  | take {e : DirEntry} {es : List DirEntry} {ps : List Bytes} : e.dir = false → b!".teal" <:+ e.path →
      ToScan (.dir es) ps → ToScan (.dir (e :: es)) (e.path :: ps)
  | skip {e : DirEntry} {es : List DirEntry} {ps : List Bytes} : (e.dir = true ∨ ¬ b!".teal" <:+ e.path) →
      ToScan (.dir es) ps → ToScan (.dir (e :: es)) ps

/-- What the rules check, as their descriptions say. -/
def ruleMeans : List (Bytes × (DiagKind → Prop)) :=
  [(b!"SYNTAX", fun k => ∃ m, k = .lex m), (b!"PARSE", fun k => ∃ w, k = .parse w),
   (b!"LINT0001", fun k => ∃ n, k = .lint (.duplicateLabel n)), (b!"LINT0002", fun k => ∃ n, k = .lint (.unusedLabel n)),
   (b!"LINT0003", fun k => k = .lint .unreachable), (b!"LINT0004", fun k => k = .lint .bJustBefore),
   (b!"LINT0005", fun k => (∃ n, k = .lint (.missingLabel n)) ∨ k = .lint .infiniteLoop),
   (b!"LINT0006", fun k => k = .lint .pragmaAfterInstr), (b!"LINT0007", fun k => ∃ m, k = .mode m),
   (b!"LINT0008", fun k => ∃ n v, k = .version n v)]

/-- The findings about labels, code and branches without effect. -/
def IsWarning (k : DiagKind) : Prop := (∃ n, k = .lint (.unusedLabel n)) ∨ k = .lint .unreachable ∨ k = .lint .bJustBefore

/-- The result `r` reports the diagnostic `d` of a file with the uri `up`. -/
structure Reports (rs : List Bytes) (up : Bytes) (d : Diag) (r : Result) : Prop where
  uri : r.uri = up
  /-- the message tells this finding -/
  kind : r.kind = d.kind
  /-- counted from one -/
  line : r.line = d.l + 1
  column : r.column = d.b + 1
  /-- the rule is one of those listed -/
  listed : r.rule ∈ rs
  /-- and says what was found -/
  rule : ∀ x ∈ ruleMeans, r.rule = x.1 ↔ x.2 d.kind
  /-- only the findings about labels, code and branches without effect are warnings -/
  warning : r.level = b!"warning" ↔ IsWarning d.kind
  error : r.level = b!"error" ↔ ¬ IsWarning d.kind

end Teal.Spec
