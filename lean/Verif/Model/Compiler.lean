import Verif.Model.Op

/-!
# Compiling expression trees and optimising listings (`compiler.go`)
-/

namespace Teal

/-- What a caller can pass to `Compile` (`Expr`, compiler.go:30-31, is the empty interface).
`NestedExpr` and `FuncExpr` (expr.go:1210-1218) have neither a `Compile` nor a `String` method.
A `Program` or `Listing` inside a tree is modelled in Model/Build.lean; other Go values are not. -/
inductive Expr where
  /-- an instruction -/
  | op (o : Op)
  /-- `[]Expr` -/
  | list (es : List Expr)
  /-- `*NestedExpr`, as made by `Block` (expr.go:3817-3819) -/
  | nested (body : List Expr)
  /-- `*FuncExpr` -/
  | func (name : Bytes) (args results : Nat) (body : List Expr)

mutual
/-- `compiler.compile` for one expression (compiler.go:267-286); `none`: panic. -/
def compileExpr (acc : List Op) : Expr → Option (List Op)
  | .op o => some (acc ++ [o])
  | .list es => compileExprs acc es
  | .nested _ => none
  | .func _ _ _ _ => none
/-- The loops over expressions (compiler.go:260-262, 271-273). -/
def compileExprs (acc : List Op) : List Expr → Option (List Op)
  | [] => some acc
  | e :: es =>
    match compileExpr acc e with
    | none => none
    | some acc => compileExprs acc es
end

/-- `Compile` (compiler.go:33-39): the program has one element, the slice. -/
def compile (es : List Expr) : Option (List Op) := compileExprs [] [.list es]

/-- The map `used` (compiler.go:117-125). -/
def usedLabels (l : List Op) : List Bytes := l.flatMap Op.labels

/-- The loop looking behind an unused label (compiler.go:134-150). -/
def keepUnused : List Op → Bool
  | [] => false
  | .plain .retsub :: _ => true
  | .u8u8 .proto _ _ :: _ => true
  | o :: os => if o.isNop then keepUnused os else false

/-- The loop of `removeUnused` (compiler.go:129-173); `prev` is the variable of that name. -/
def removeUnusedLoop (used : List Bytes) : Option Op → List Op → List Op
  | _, [] => []
  | prev, o :: os =>
    match o with
    | .label n =>
      if used.contains n || keepUnused os then o :: removeUnusedLoop used (some o) os
      else removeUnusedLoop used prev os
    | .plain .retsub =>
      match prev with
      | some (.label n) =>
        if used.contains n then o :: removeUnusedLoop used (some o) os
        else removeUnusedLoop used prev os
      | _ => removeUnusedLoop used (some o) os
    | _ => o :: removeUnusedLoop used (some o) os

/-- `removeUnused` (compiler.go:114-176). -/
def removeUnused (l : List Op) : List Op := removeUnusedLoop (usedLabels l) none l

/-- The types after which `removeOpsAfterUnconditionalBranch` skips (compiler.go:47-54). -/
def Op.cuts : Op → Bool
  | .branch .b _ => true
  | .plain .returnOp => true
  | .plain .err => true
  | _ => false

def Op.isLabel : Op → Bool
  | .label _ => true
  | _ => false

/-- `removeOpsAfterUnconditionalBranch` (compiler.go:41-70); the flag says that the inner loop is
running. -/
def removeAfterLoop : Bool → List Op → List Op
  | _, [] => []
  | false, o :: os => o :: removeAfterLoop o.cuts os
  | true, o :: os =>
    if o.isLabel then o :: removeAfterLoop false os
    else if o.isNop then o :: removeAfterLoop true os
    else removeAfterLoop true os

/-- `removeOpsAfterUnconditionalBranch` (compiler.go:41-70). -/
def removeOpsAfterUnconditionalBranch (l : List Op) : List Op := removeAfterLoop false l

/-- The loop looking for the label behind a `b` (compiler.go:87-105). -/
def targetFollows (t : Bytes) : List Op → Bool
  | [] => false
  | o :: os =>
    match o with
    | .label n => n == t
    | o => if o.isNop then targetFollows t os else false

/-- `removeBJustBeforeItsTargetLabel` (compiler.go:72-112). -/
def removeBJustBeforeItsTargetLabel : List Op → List Op
  | [] => []
  | o :: os =>
    match o with
    | .branch .b t =>
      if targetFollows t os then removeBJustBeforeItsTargetLabel os
      else o :: removeBJustBeforeItsTargetLabel os
    | o => o :: removeBJustBeforeItsTargetLabel os

/-- The loop of `mergeLabels` (compiler.go:181-203).  Renaming the label it drops would change it
wherever the pointer is shared; but `prev` never is a label, since labels are `Nop`. -/
def mergeLabelsLoop : Option Op → List Op → List Op
  | _, [] => []
  | prev, o :: os =>
    let prev' := if o.isNop then prev else some o
    match o, prev with
    | .label _, some (.label _) => mergeLabelsLoop prev' os
    | _, _ => o :: mergeLabelsLoop prev' os

/-- `mergeLabels` (compiler.go:178-206). -/
def mergeLabels (l : List Op) : List Op := mergeLabelsLoop none l

/-- `Listing.Optimize` (compiler.go:229-238). -/
def optimize (l : List Op) : List Op :=
  mergeLabels (removeBJustBeforeItsTargetLabel (removeOpsAfterUnconditionalBranch (removeUnused l)))

end Teal
