import Verif.Model.Op
import Verif.Model.Lexer

/-!
# Reading one source line (`parserContext` and the parse functions of `process.go`)

`parserContext` is one mutable object for the whole source.  Everything the reading of a line
does to it, other than setting `version`, `mode` and `vtok`, is appending to slices that no
parse function ever reads.  The model therefore gives each line a context of its own that
collects what the line appends (`LineCtx`), and `Process` concatenates them.
A call that panics with `recoverable{}` (`failAt`, process.go:914-917) is the outcome `fail`,
which keeps the context, since appends made before the panic persist.
-/

namespace Teal

/-- Why a `parseError` was reported; `text` is the word its message shows. -/
inductive ParseWhy where
  | missingArg | badUint64 | badUint8 | badInt8 | badField | badBytes | badAddr | missingQuotes
  | badVersion | unknownPragma (text : Bytes) | missingLabelName | tooManyValues | unknownOpcode (text : Bytes)
deriving DecidableEq, Repr

/-- The errors of the lint rules (linter.go:50-208); `name` is the label the message names. -/
inductive LintRule where
  | duplicateLabel (name : Bytes) | unusedLabel (name : Bytes) | unreachable | bJustBefore | missingLabel (name : Bytes) | infiniteLoop
  | pragmaAfterInstr
deriving DecidableEq, Repr

/-- Where a diagnostic comes from. -/
inductive DiagKind where
  /-- `lexerError` (lexer.go:127-156). -/
  | lex (msg : LexMsg)
  /-- `parseError` (parser.go:9-39). -/
  | parse (why : ParseWhy)
  /-- the `lintError` of process.go:3253-3262; `m` is the mode in its message. -/
  | mode (m : ProgramMode)
  /-- the `lintError` of process.go:3264-3272; `min` and `cur` are the versions in its message. -/
  | version (min cur : Nat)
  /-- a `lintError` made from an error of the linter (process.go:3303-3313). -/
  | lint (rule : LintRule)
deriving DecidableEq, Repr

/-- `Diagnostic`: what was found, and its line, begin and end. -/
structure Diag where
  kind : DiagKind
  l : Nat
  b : Nat
  e : Nat
deriving DecidableEq, Repr

/-- `RequiredVersion` (process.go:2528-2534). -/
structure RequiredVersion where
  l : Nat
  b : Nat
  e : Nat
  version : Nat
deriving DecidableEq, Repr

/-- `labelSymbol` (symbols.go:19-26), without the signature, which is filled in later. -/
structure LabelSym where
  name : Bytes
  l : Nat
  b : Nat
  e : Nat
  docs : Bytes
  sig : Option (Nat × Nat) := none
deriving DecidableEq, Repr

/-- What reading one line has done so far: `args` (`ts`, `i`), the version in force, and
what the line appended.  `vtok` is the token `mustReadPragma` stored, if it did. -/
structure LineCtx where
  ts : List Token
  i : Nat := 0
  version : Nat
  vtok : Option Token := none
  ops : List Op := []
  diag : List Diag := []
  nums : List Token := []
  strs : List Token := []
  keys : List Token := []
  mcrs : List Token := []
  refs : List Token := []
deriving DecidableEq, Repr

/-- The zero `Token` (its type is not observed). -/
def Token.zero : Token := { v := [], l := 0, b := 0, e := 0, t := .eol }

namespace LineCtx

/-- `arguments.Curr` (parser.go:389-395). -/
def curr (c : LineCtx) : Token :=
  if 0 < c.i ∧ c.i ≤ c.ts.length then c.ts.getD (c.i - 1) .zero else .zero

/-- `arguments.Text` (parser.go:397-399). -/
def text (c : LineCtx) : Bytes := c.curr.v

/-- `arguments.Prev` (parser.go:381-387); `i ≤ len(ts)+1`, so the index is in range. -/
def prev (c : LineCtx) : Token := if c.i > 1 then c.ts.getD (c.i - 2) .zero else .zero

end LineCtx

/-- The outcome of a parse function: a value, a recoverable failure, or any other panic. -/
inductive Out (α : Type) where
  | ok (a : α) (c : LineCtx)
  | fail (c : LineCtx)
  | crash

/-- Parse functions. -/
def P (α : Type) : Type := LineCtx → Out α

instance : Monad P where
  pure a := fun c => .ok a c
  bind m f := fun c =>
    match m c with
    | .ok a c => f a c
    | .fail c => .fail c
    | .crash => .crash

namespace P

/-- `arguments.Scan` (parser.go:372-379), which is also `maybeReadArg` (process.go:994-996). -/
def scan : P Bool := fun c =>
  if c.i ≤ c.ts.length then .ok (decide (c.i + 1 ≤ c.ts.length)) { c with i := c.i + 1 }
  else .ok false c

/-- `c.args.Text()`. -/
def text : P Bytes := fun c => .ok c.text c

/-- `c.version`. -/
def version : P Nat := fun c => .ok c.version c

/-- `failToken` (process.go:919-921) with `failAt` (914-917). -/
def failToken {α : Type} (t : LineCtx → Token) (why : ParseWhy) : P α := fun c =>
  .fail { c with diag := c.diag ++ [⟨.parse why, (t c).l, (t c).b, (t c).e⟩] }

/-- `failCurr` (process.go:923-925). -/
def failCurr {α : Type} (why : ParseWhy) : P α := failToken LineCtx.curr why

/-- `failPrev` (process.go:927-929). -/
def failPrev {α : Type} (why : ParseWhy) : P α := failToken LineCtx.prev why

/-- `c.nums = append(c.nums, c.args.Curr())`. -/
def addNum : P Unit := fun c => .ok () { c with nums := c.nums ++ [c.curr] }

/-- `c.strs = append(c.strs, c.args.Curr())`. -/
def addStr : P Unit := fun c => .ok () { c with strs := c.strs ++ [c.curr] }

/-- `c.keys = append(c.keys, c.args.Curr())`. -/
def addKey : P Unit := fun c => .ok () { c with keys := c.keys ++ [c.curr] }

/-- `c.mcrs = append(c.mcrs, c.args.Curr())`. -/
def addMcr : P Unit := fun c => .ok () { c with mcrs := c.mcrs ++ [c.curr] }

/-- `c.refs = append(c.refs, c.args.Curr())`. -/
def addRef : P Unit := fun c => .ok () { c with refs := c.refs ++ [c.curr] }

/-- `c.ops = append(c.ops, op)` in `emit` (process.go:887-905).  The rest of `emit` (counting
references, `protos`, `label`) is a function of the emitted instructions and is modelled with
`Process`. -/
def emit (op : Op) : P Unit := fun c => .ok () { c with ops := c.ops ++ [op] }

/-- A reader's error return makes the caller call `failCurr`. -/
def orFail {α : Type} (r : Option α) (why : ParseWhy) : P α :=
  match r with
  | some a => pure a
  | none => failCurr why

/-- `mustReadArg` (process.go:931-935). -/
def mustReadArg : P Unit := do
  let ok ← scan
  if ok then pure () else failPrev .missingArg

/-- `mustRead` (process.go:1397-1400). -/
def mustRead : P Bytes := do
  mustReadArg
  text

/-- `parseUint64` (process.go:1157-1166). -/
def parseUint64 : P Nat := do
  let v ← orFail (readInt (← text)) .badUint64
  addNum
  pure v

/-- `parseConstUint64` (process.go:1168-1177). -/
def parseConstUint64 : P Nat := do
  let v ← orFail (readConstInt (← text)) .badUint64
  addNum
  pure v

/-- `parseUint8` (process.go:1179-1188). -/
def parseUint8 : P Nat := do
  let v ← orFail (readUint8 (← text)) .badUint8
  addNum
  pure v

/-- `parseInt8` (process.go:1190-1199). -/
def parseInt8 : P Int := do
  let v ← orFail (readInt8 (← text)) .badInt8
  addNum
  pure v

/-- `mustReadInt` (process.go:1368-1371). -/
def mustReadInt : P Nat := do mustReadArg; parseUint64

/-- `mustReadConstInt` (process.go:1373-1376). -/
def mustReadConstInt : P Nat := do mustReadArg; parseConstUint64

/-- `mustReadUint8` (process.go:1378-1381). -/
def mustReadUint8 : P Nat := do mustReadArg; parseUint8

/-- `maybeReadUint8` (process.go:1383-1390). -/
def maybeReadUint8 : P (Option Nat) := do
  let ok ← scan
  if ok then
    let v ← parseUint8
    pure (some v)
  else pure none

/-- `mustReadInt8` (process.go:1392-1395). -/
def mustReadInt8 : P Int := do mustReadArg; parseInt8

/-- The reader functions of parser.go a `mustRead…Field` method calls. -/
def readFieldWith (r : FieldReader) (v : Nat) (s : Bytes) : Option FieldRead :=
  match r with
  | .group g => readField g v s
  | .txn c => readTxnField c v s

/-- process.go: `mustReadAcctParamsField` 998-1014, `mustReadAssetHoldingField` 1016-1031,
`mustReadAssetParamsField` 1033-1048, `mustReadBlockField` 1050-1064, `mustReadGlobalField`
1066-1081, `mustReadVrfVerifyField` 1089-1104, `mustReadAppParamsField` 1140-1155,
`mustReadTxnField` 1402-1405, `mustReadItxnField` 1407-1410, `mustReadTxnaField` 1412-1415,
`mustReadEcGroup` 1417-1420, `mustReadBase64Encoding` 1422-1425, `mustReadJsonRef` 1427-1430,
`mustReadEcdsaCurveIndex` 1432-1435, `parseTxnField` 1246-1260, `parseEcGroup` 1201-1214,
`parseBase64Encoding` 1216-1229, `parseJsonRef` 1231-1244, `parseEcdsaCurveIndex` 1347-1361: all
have
this body. -/
def mustReadField (r : FieldReader) : P Nat := do
  mustReadArg
  let f ← orFail (readFieldWith r (← version) (← text)) .badField
  if f.isconst then addStr else addNum
  pure f.field

/-- `mustReadLabel` (process.go:1083-1087). -/
def mustReadLabel : P Bytes := do
  mustReadArg
  addRef
  text

/-- `mustReadAddr` (process.go:964-975).  `types.DecodeAddress` belongs to the Algorand SDK;
`addrOk` says which texts it accepts. -/
def mustReadAddr (addrOk : Bytes → Bool) : P Bytes := do
  let value ← mustRead
  if addrOk value then pure () else failCurr .badAddr
  addStr
  pure value

/-- `mustReadSignature` (process.go:977-992).  Indexing an empty text panics. -/
def mustReadSignature : P Bytes := do
  mustReadArg
  let value ← text
  match value.head?, value.getLast? with
  | some b, some e =>
    if b ≠ chQuote ∨ e ≠ chQuote then failCurr .missingQuotes else pure ()
    addStr
    text
  | _, _ => fun _ => .crash

/-- `strings.HasPrefix`. -/
def hasPrefix (s p : Bytes) : Bool := p.isPrefixOf s

/-- `arg[open+1 : close]` with `open` and `close` the indices of the first parentheses;
`none` when there is no closing one.  The callers know that `arg` starts with a word and an
opening parenthesis, so that `open < close`. -/
def parenBody (arg : Bytes) : Option Bytes :=
  let op := arg.findIdx (· = 40)
  let cl := arg.findIdx (· = 41)
  if cl < arg.length then some ((arg.take cl).drop (op + 1)) else none

/-- `parseBytes` (process.go:1262-1345). -/
def parseBytes : P Bytes := do
  let arg ← text
  if hasPrefix arg b!"base32(" || hasPrefix arg b!"b32(" then
    let body ← orFail (parenBody arg) .badBytes
    let val ← orFail (base32DecodeAnyPadding body) .badBytes
    addStr
    pure val
  else if hasPrefix arg b!"base64(" || hasPrefix arg b!"b64(" then
    let body ← orFail (parenBody arg) .badBytes
    let val ← orFail (b64Decode body) .badBytes
    addStr
    pure val
  else if hasPrefix arg b!"0x" then
    let val ← orFail (hexDecode (arg.drop 2)) .badBytes
    addStr
    pure val
  else if arg = b!"base32" ∨ arg = b!"b32" then
    addKey
    let l ← mustRead
    let val ← orFail (base32DecodeAnyPadding l) .badBytes
    addStr
    pure val
  else if arg = b!"base64" ∨ arg = b!"b64" then
    addKey
    let l ← mustRead
    let val ← orFail (b64Decode l) .badBytes
    addStr
    pure val
  else if arg.length > 1 ∧ arg.head? = some chQuote ∧ arg.getLast? = some chQuote then
    match parseStringLiteral arg with
    | .ok val =>
      addStr
      pure val
    | .err => failCurr .badBytes
    | .crash => fun _ => .crash
  else failCurr .badBytes

/-- `mustReadBytes` (process.go:1363-1366). -/
def mustReadBytes : P Bytes := do mustReadArg; parseBytes

/-- `for c.args.Scan() { … }`, collecting what the body returns.  Each round moves `i`, which
is at most `len(ts)`, so `fuel = len(ts) + 1` rounds suffice. -/
def scanLoop {α : Type} (body : P α) : Nat → P (List α)
  | 0 => pure []
  | fuel + 1 => do
    let ok ← scan
    if ok then
      let a ← body
      let as ← scanLoop body fuel
      pure (a :: as)
    else pure []

/-- The loop of `readBytesArray`, `readLabelsArray` and `readUint64Array`, with enough fuel. -/
def readArray {α : Type} (body : P α) : P (List α) := fun c =>
  scanLoop body (c.ts.length + 1) c

/-- `readBytesArray` (process.go:1106-1115). -/
def readBytesArray : P (List Bytes) := readArray parseBytes

/-- `readLabelsArray` (process.go:1117-1126). -/
def readLabelsArray : P (List Bytes) := readArray do
  let t ← text
  addRef
  pure t

/-- `readUint64Array` (process.go:1128-1138): the token is recorded twice. -/
def readUint64Array : P (List Nat) := readArray do
  let i ← parseUint64
  addNum
  pure i

/-- `c.vtok = &token` (process.go:947-948). -/
def setVtok : P Unit := fun c => .ok () { c with vtok := some c.curr }

/-- `c.version = version` (process.go:959). -/
def setVersion (v : Nat) : P Unit := fun c => .ok () { c with version := v }

/-- `mustReadPragma` (process.go:937-962). -/
def mustReadPragma : P Nat := do
  addMcr
  let name ← mustRead
  if name = b!"version" then
    addMcr
    let v ← mustReadInt
    setVtok
    if v < 1 then failCurr .badVersion else pure ()
    setVersion v
    pure v
  else failCurr (.unknownPragma (← text))

/-- `opPragma` (process.go:1572-1575). -/
def opPragma : P Unit := do
  let v ← mustReadPragma
  emit (.pragma (v % 256))

/-- The parse functions, by shape; the rows of `opsList` cite the lines of each. -/
def parseShape (addrOk : Bytes → Bool) : Shape → P Unit
  | .plain k => emit (.plain k)
  | .u8 k => do
    let n ← mustReadUint8
    emit (.u8 k n)
  | .u8u8 k => do
    let m ← mustReadUint8
    let n ← mustReadUint8
    emit (.u8u8 k m n)
  | .i8 k => do
    let i ← mustReadInt8
    emit (.i8 k i)
  | .field r k => do
    let f ← mustReadField r
    emit (.field k f)
  | .fieldIdx k => do
    let f ← mustReadField (.txn .txna)
    let i ← mustReadUint8
    emit (.fieldIdx k f i)
  | .fieldOptIdx k k' => do
    let f ← mustReadField (.txn .txn)
    match ← maybeReadUint8 with
    | some i => emit (.fieldIdx k' f i)
    | none => emit (.field k f)
  | .groupField c k => do
    let t ← mustReadUint8
    let f ← mustReadField (.txn c)
    emit (.groupField k t f)
  | .gtxn => do
    let t ← mustReadUint8
    let f ← mustReadField (.txn .txn)
    match ← maybeReadUint8 with
    | some i => emit (.groupFieldIdx .gtxna t f i)
    | none => emit (.groupField .gtxn t f)
  | .gtxna => do
    let t ← mustReadUint8
    let f ← mustReadField (.txn .txna)
    let i ← mustReadUint8
    emit (.groupFieldIdx .gtxna t f i)
  | .gitxna => do
    let t ← mustReadInt
    let f ← mustReadField (.txn .txna)
    let i ← mustReadUint8
    emit (.groupFieldIdx .gitxna (t % 256) f i)
  | .int => do
    let v ← mustReadConstInt
    emit (.int v)
  | .pushint => do
    let v ← mustReadInt
    emit (.pushint v)
  | .byte => do
    let v ← mustReadBytes
    emit (.byte v)
  | .pushbytes => do
    let v ← mustReadBytes
    emit (.pushbytes v)
  | .addr => do
    let v ← mustReadAddr addrOk
    emit (.addr v)
  | .method => do
    let v ← mustReadSignature
    emit (.method v)
  | .intcblock => do
    let vs ← readUint64Array
    emit (.intcblock vs)
  | .pushints => do
    let vs ← readUint64Array
    emit (.pushints vs)
  | .bytecblock => do
    let vs ← readBytesArray
    emit (.bytecblock vs)
  | .pushbytess => do
    let vs ← readBytesArray
    emit (.pushbytess vs)
  | .branch k => do
    let l ← mustReadLabel
    emit (.branch k l)
  | .switch => do
    let ls ← readLabelsArray
    emit (.switch ls)
  | .match_ => do
    let ls ← readLabelsArray
    emit (.match_ ls)
  | .replace => do
    match ← maybeReadUint8 with
    | none => emit (.plain .replace3)
    | some s => emit (.u8 .replace2 s)
  | .extract => do
    match ← maybeReadUint8 with
    | none => emit (.plain .extract3)
    | some s =>
      let l ← mustReadUint8
      emit (.u8u8 .extract s l)

end P

/-- The versions `docContext` records when it runs a parse function: it starts with version 1
in both modes (process.go:1458-1462), `minVersion` sets both (571-574) and `modeMinVersion`
sets one (576-583). -/
def runDecls (ds : List VersionDecl) (m : ProgramMode) : Nat :=
  ds.foldl (fun v d =>
    match d with
    | .both n => n
    | .mode m' n => if m' = m then n else v) 1

/-- `Ops.Get` (process.go:1446-1449): `Items` was filled in the order of `opsList`, so for a
name listed twice the last row counts. -/
def opsGet (name : Bytes) : Option OpEntry :=
  opsList.reverse.find? fun o => o.name == name

/-- `info.AppVersion` / `info.SigVersion` as chosen at process.go:3244-3250. -/
def OpEntry.minVersion (o : OpEntry) (m : ProgramMode) : Nat := runDecls o.decls m

end Teal
