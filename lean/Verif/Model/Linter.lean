import Verif.Model.Parse

/-!
# The linter (`linter.go`)

`getLabelsUsers` and `getAllLabels` return maps from names to index lists.  A map is modelled
by the function it denotes and the list of its keys.  Three rules range over such a map, in an
order Go leaves open: the order is a parameter (`MapOrder`), about which nothing but being a
permutation of the keys is assumed.
-/

namespace Teal

/-- `LineError` (linter.go:37-42): the line and the rule; the label name some errors carry only
appears in messages and is left out. -/
structure LintErr where
  l : Nat
  rule : LintRule
deriving DecidableEq, Repr

/-- `RedundantLine` (linter.go:7-35). -/
inductive RedundantLine where
  | label (l : Nat) (name : Bytes)
  | b (l : Nat)
deriving DecidableEq, Repr

/-- The order in which a `range` over a map visits its keys; the first argument tells the
loops of one `Process` call apart. -/
structure MapOrder where
  order : Nat → List Bytes → List Bytes
  perm : ∀ k ks, (order k ks).Perm ks

/-- `used[name]`, for the instructions from index `i` on (`getLabelsUsers`,
linter.go:222-235). -/
def labelUsers (name : Bytes) : Nat → List Op → List Nat
  | _, [] => []
  | i, o :: os => ((o.labels.filter (· == name)).map fun _ => i) ++ labelUsers name (i + 1) os

/-- The keys of `used`. -/
def usedNames (l : List Op) : List Bytes := (l.flatMap Op.labels).eraseDups

/-- `all[name]`, for the instructions from index `i` on (`getAllLabels`, linter.go:237-248). -/
def labelDefs (name : Bytes) : Nat → List Op → List Nat
  | _, [] => []
  | i, .label n :: os => if n = name then i :: labelDefs name (i + 1) os
                         else labelDefs name (i + 1) os
  | i, _ :: os => labelDefs name (i + 1) os

/-- The name a `LabelExpr` defines. -/
def Op.labelName? : Op → Option Bytes
  | .label n => some n
  | _ => none

/-- The keys of `all`. -/
def labelNames (l : List Op) : List Bytes := (l.filterMap Op.labelName?).eraseDups

/-- `canEscape` (linter.go:250-270). -/
def canEscape (l : List Op) (frm til : Nat) : Bool :=
  (List.range' frm (til + 1 - frm)).any fun i =>
    match l[i]? with
    | none => false
    | some op =>
      match op.labels? with
      | some ls => ls.any fun n =>
          (labelDefs n 0 l).any fun idx => decide (idx < frm) || decide (til < idx)
      | none => op.isTerminator

/-- `DuplicateLabelsRule.Run` (linter.go:292-301). -/
def lintDuplicate (o : MapOrder) (l : List Op) : List LintErr :=
  (o.order 0 (labelNames l)).flatMap fun name =>
    if (labelDefs name 0 l).length > 1 then
      (labelDefs name 0 l).map fun i => ⟨i, .duplicateLabel name⟩
    else []

/-- The lines the `UnusedLabelsRule` reports, with their names. -/
def unusedLabels (o : MapOrder) (l : List Op) : List (Nat × Bytes) :=
  (o.order 1 (labelNames l)).flatMap fun name =>
    if labelUsers name 0 l = [] then (labelDefs name 0 l).map fun i => (i, name) else []

/-- `UnusedLabelsRule.Run` (linter.go:314-324): its errors. -/
def lintUnused (o : MapOrder) (l : List Op) : List LintErr :=
  (unusedLabels o l).map fun p => ⟨p.1, .unusedLabel p.2⟩

/-- `BExpr`, `ReturnExpr`, `ErrExpr`: the cases of linter.go:343-350. -/
def Op.stopsFlow : Op → Bool
  | .branch .b _ => true
  | .plain .returnOp => true
  | .plain .err => true
  | _ => false

/-- The loops of `OpsAfterUnconditionalBranchRule.Run` (linter.go:337-368): `dead` says whether
the inner loop is running.  The loops share `i`, so leaving the inner loop at a label lets the
outer loop go on behind that label. -/
def unreachableFrom (used : Bytes → List Nat) : Bool → Nat → List Op → List Nat
  | _, _, [] => []
  | false, i, o :: os => unreachableFrom used o.stopsFlow (i + 1) os
  | true, i, .label n :: os =>
    unreachableFrom used (decide (used n = [])) (i + 1) os
  | true, i, o :: os =>
    if o.isNop then unreachableFrom used true (i + 1) os
    else i :: unreachableFrom used true (i + 1) os

/-- `OpsAfterUnconditionalBranchRule.Run` (linter.go:337-368). -/
def lintUnreachable (l : List Op) : List LintErr :=
  (unreachableFrom (fun n => labelUsers n 0 l) false 0 l).map fun i => ⟨i, .unreachable⟩

/-- The inner loop of linter.go:392-416: skip no-ops; is the next thing the label `name`? -/
def nextLabelIs (name : Bytes) : List Op → Bool
  | [] => false
  | .label n :: _ => n = name
  | o :: os => if o.isNop then nextLabelIs name os else false

/-- The indices `CheckBranchJustBeforeLabelRule.Run` reports (linter.go:381-420). -/
def bJustBeforeFrom : Nat → List Op → List Nat
  | _, [] => []
  | i, .branch .b n :: os =>
    if os ≠ [] ∧ nextLabelIs n os = true then i :: bJustBeforeFrom (i + 1) os
    else bJustBeforeFrom (i + 1) os
  | i, _ :: os => bJustBeforeFrom (i + 1) os

/-- `CheckBranchJustBeforeLabelRule.Run`: its errors. -/
def lintBJustBefore (l : List Op) : List LintErr :=
  (bJustBeforeFrom 0 l).map fun i => ⟨i, .bJustBefore⟩

/-- The first loop of `CheckLoopsRule.Run` (linter.go:436-443). -/
def lintMissing (o : MapOrder) (l : List Op) : List LintErr :=
  (o.order 2 (usedNames l)).flatMap fun name =>
    if labelDefs name 0 l = [] then (labelUsers name 0 l).map fun i => ⟨i, .missingLabel name⟩ else []

/-- The scan back of linter.go:459-479: the nearest label `name` before index `j`. -/
def findBack (l : List Op) (name : Bytes) : Nat → Option Nat
  | 0 => none
  | j + 1 => if l[j]? = some (.label name) then some j else findBack l name j

/-- The body of the second loop of `CheckLoopsRule.Run` (linter.go:445-482). -/
def loopsAt (l : List Op) (i : Nat) : Bool :=
  match l[i]? with
  | some (.branch .b n) =>
    match findBack l n i with
    | some j => !canEscape l j i
    | none => false
  | _ => false

/-- The second loop of `CheckLoopsRule.Run`. -/
def lintLoops (l : List Op) : List LintErr :=
  ((List.range l.length).filter fun i => i ≠ 0 && loopsAt l i).map fun i => ⟨i, .infiniteLoop⟩

/-- `CheckPragmaRule.Run` (linter.go:495-512); `prev` is `prev != nil`. -/
def pragmaFrom : Bool → Nat → List Op → List Nat
  | _, _, [] => []
  | prev, i, .pragma _ :: os =>
    if prev then i :: pragmaFrom true (i + 1) os else pragmaFrom true (i + 1) os
  | prev, i, o :: os =>
    if o.isNop then pragmaFrom prev (i + 1) os else pragmaFrom true (i + 1) os

/-- `CheckPragmaRule.Run`: its errors. -/
def lintPragma (l : List Op) : List LintErr :=
  (pragmaFrom false 0 l).map fun i => ⟨i, .pragmaAfterInstr⟩

/-- `Linter.Lint` (linter.go:553-560): the errors, in the order of `LintRules` (542-551). -/
def lintErrs (o : MapOrder) (l : List Op) : List LintErr :=
  lintDuplicate o l ++ lintUnused o l ++ lintUnreachable l ++ lintBJustBefore l
    ++ (lintMissing o l ++ lintLoops l) ++ lintPragma l

/-- `Linter.Lint`: `reds`. -/
def lintReds (o : MapOrder) (l : List Op) : List RedundantLine :=
  (unusedLabels o l).map (fun p => .label p.1 p.2) ++ (bJustBeforeFrom 0 l).map .b

end Teal
