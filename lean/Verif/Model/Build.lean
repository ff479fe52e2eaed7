import Verif.Model.Print
import Verif.Model.Compiler

/-!
# Programs built in Go (`expr.go:3703-3872`, `compiler.go`)
-/

namespace Teal.Build

/-- What the functions for building programs return and `Compile` is given.  Besides the
instructions of `Op` there are the ones with bytes in string format, and values of type `Program` or
`Listing` inside a tree. -/
inductive Code where
  /-- an instruction -/
  | op (o : Op)
  /-- `*ByteExpr` with `Format: BytesStringLiteral` (expr.go:1286-1320) -/
  | str (v : Bytes)
  /-- `[]Expr` -/
  | list (es : List Code)
  /-- `*NestedExpr` (expr.go:1209-1212) -/
  | nested (body : List Code)
  /-- `*FuncExpr` (expr.go:1214-1218) -/
  | func (label : Bytes) (args results : Nat) (body : List Code)
  /-- a `Program`; it has a `String` method, so it is taken for an instruction (compiler.go:277-279;
  its `Compile` method returns a `Listing` and so is not the one of `complexExpr`) -/
  | program (es : List Code)

mutual
/-- What `compile` (compiler.go:267-286) adds to the listing for an expression, printed as
`Listing.String` (compiler.go:242-251) does: each instruction with a line feed behind it; `none`:
panic.  Simplified: the listing in between is left out. -/
def Code.text : Code → Option Bytes
  | .op o => some (o.str ++ [chLF])
  | .str v => some (b!"byte \"" ++ v ++ b!"\"" ++ [chLF])
  | .list es => texts es
  | .nested _ => none
  | .func _ _ _ _ => none
  | .program es => (texts es).map (· ++ [chLF])
/-- The loops over expressions (compiler.go:260-262, 271-273). -/
def texts : List Code → Option Bytes
  | [] => some []
  | e :: es =>
    match e.text with
    | none => none
    | some t => (texts es).map (t ++ ·)
end

/-- `Program.String` (compiler.go:253-255). -/
def programString (es : List Code) : Option Bytes := texts [.list es]

/-! The functions.  A `*LabelExpr` is its name. -/

/-- `Block` (expr.go:3817-3819) -/
def block (es : List Code) : Code := .nested es
/-- `Minus` (expr.go:3703-3707) -/
def minus (a b : Code) : Code := block [a, b, .op (.plain .minus)]
/-- `Plus` (expr.go:3709-3713) -/
def plus (a b : Code) : Code := block [a, b, .op (.plain .plus)]
/-- `Load` (expr.go:3715-3717) -/
def load (index : Nat) : Code := .op (.u8 .load index)
/-- `Store` (expr.go:3719-3721) -/
def store (index : Nat) : Code := .op (.u8 .store index)
/-- `Gtxns` (expr.go:3723-3725) -/
def gtxns (f : Nat) : Code := .op (.field .gtxns f)
/-- `Proto` (expr.go:3727-3729) -/
def proto (args results : Nat) : Code := .op (.u8u8 .proto args results)
/-- `Bz` (expr.go:3731-3735) -/
def bz (l : Bytes) : Code := .op (.branch .bz l)
/-- `B` (expr.go:3737-3741) -/
def b (l : Bytes) : Code := .op (.branch .b l)
/-- `StringBytes` (expr.go:3743-3745) -/
def stringBytes (v : Bytes) : Code := .str v
/-- `Label` (expr.go:3747-3749) -/
def label (name : Bytes) : Code := .op (.label name)
/-- `Match` (expr.go:3751-3753) -/
def match_ (ls : List Bytes) : Code := .op (.match_ ls)
/-- `Switch` (expr.go:3755-3757) -/
def switch (ls : List Bytes) : Code := .op (.switch ls)
/-- `Txn` (expr.go:3759-3761) -/
def txn (f : Nat) : Code := .op (.field .txn f)
/-- `Txna` (expr.go:3763-3765) -/
def txna (f i : Nat) : Code := .op (.fieldIdx .txna f i)
/-- `Int` (expr.go:3767-3769) -/
def int (v : Nat) : Code := .op (.int v)
/-- `Bnz` (expr.go:3771-3775) -/
def bnz (l : Bytes) : Code := .op (.branch .bnz l)
/-- `MatchLabels` (expr.go:3777-3787) -/
def matchLabels (index : Code) (ls : List Bytes) : Code := .nested (ls.map stringBytes ++ [index, match_ ls])
/-- `AssertEq` (expr.go:3789-3796) -/
def assertEq (x y : Code) : Code := block [x, y, .op (.plain .eq), .op (.plain .assert)]
/-- `AssertLen` (expr.go:3798-3806) -/
def assertLen (value : Code) (len : Nat) : Code := assertEq (block [value, .op (.plain .len)]) (int len)
/-- `AssertLtEq` (expr.go:3808-3815) -/
def assertLtEq (x y : Code) : Code := block [x, y, .op (.plain .le), .op (.plain .assert)]
/-- `FrameDig` (expr.go:3821-3823) -/
def frameDig (index : Int) : Code := .op (.i8 .frameDig index)
/-- `Arg` (expr.go:3825-3827); `ApplicationArgs` is field 26 (go_algorand.go) -/
def arg (index : Nat) : Code := txna 26 index
/-- `ItxnField` (expr.go:3829-3831) -/
def itxnField (f : Nat) : Code := .op (.field .itxnField f)
/-- `Itxn` (expr.go:3833-3841) -/
def itxn (es : List Code) : Code := block [.list (.op (.plain .itxnBegin) :: (es ++ [.op (.plain .itxnSubmit)]))]
/-- `CallSub` (expr.go:3843-3845) of a label or function -/
def callSub (l : Bytes) : Code := .op (.branch .callsub l)
/-- `Cover` (expr.go:3847-3849) -/
def cover (index : Nat) : Code := .op (.u8 .uncover index)
/-- `Comment` (expr.go:3851-3855) -/
def comment (text : Bytes) : Code := .op (.comment text)
/-- `Global` (expr.go:3857-3859) -/
def global (f : Nat) : Code := .op (.field .globalOp f)
/-- `AssertInRange` (expr.go:3861-3872) -/
def assertInRange (e : Code) (lo hi : Nat) : Code :=
  block [e, int lo, .op (.plain .ge), e, int hi, .op (.plain .lt), .op (.plain .and), .op (.plain .assert)]
/-- `FuncExpr.Call` (expr.go:1220-1227) -/
def call (l : Bytes) (args : List Code) : Code := .nested (args ++ [callSub l])

end Teal.Build
