import Verif.Model.Process
import Verif.Model.Consts
import Verif.Model.Range

/-!
# Questions an editor asks about a processed text (`process.go:2581-2905`)
-/

namespace Teal

/-- A token as a `Range` (lexer.go:28-42). -/
def Token.range (t : Token) : Range := ⟨t.l, t.b, t.l, t.e⟩

/-- A label symbol as a `Range` (symbols.go:44-58). -/
def LabelSym.range (s : LabelSym) : Range := ⟨s.l, s.b, s.l, s.e⟩

/-- A `RequiredVersion` as a `Range` (process.go:2535-2549). -/
def RequiredVersion.range (v : RequiredVersion) : Range := ⟨v.l, v.b, v.l, v.e⟩

/-- The `Type` of an `opItemArg` (process.go:15-42): what a parse function reads. -/
inductive ArgType where
  | constInt | uint64 | uint8 | int8 | bytes | label | signature | addr
  | field (r : FieldReader)
deriving DecidableEq, Repr

/-- `opItemArg` (process.go:290-295) without its name and `Optional`. -/
structure ArgInfo where
  type : ArgType
  array : Bool := false
deriving DecidableEq, Repr

/-- The arguments `docContext` (process.go:548-835) records when it runs a parse function;
`maybeReadUint8` always succeeds there (679-689). -/
def Shape.args : Shape → List ArgInfo
  | .plain _ => []
  | .u8 _ => [⟨.uint8, false⟩]
  | .u8u8 _ => [⟨.uint8, false⟩, ⟨.uint8, false⟩]
  | .i8 _ => [⟨.int8, false⟩]
  | .field r _ => [⟨.field r, false⟩]
  | .fieldIdx _ => [⟨.field (.txn .txna), false⟩, ⟨.uint8, false⟩]
  | .fieldOptIdx _ _ => [⟨.field (.txn .txn), false⟩, ⟨.uint8, false⟩]
  | .groupField c _ => [⟨.uint8, false⟩, ⟨.field (.txn c), false⟩]
  | .gtxn => [⟨.uint8, false⟩, ⟨.field (.txn .txn), false⟩, ⟨.uint8, false⟩]
  | .gtxna => [⟨.uint8, false⟩, ⟨.field (.txn .txna), false⟩, ⟨.uint8, false⟩]
  | .gitxna => [⟨.uint64, false⟩, ⟨.field (.txn .txna), false⟩, ⟨.uint8, false⟩]
  | .int => [⟨.constInt, false⟩]
  | .pushint => [⟨.uint64, false⟩]
  | .byte => [⟨.bytes, false⟩]
  | .pushbytes => [⟨.bytes, false⟩]
  | .addr => [⟨.addr, false⟩]
  | .method => [⟨.signature, false⟩]
  | .intcblock => [⟨.uint64, true⟩]
  | .pushints => [⟨.uint64, true⟩]
  | .bytecblock => [⟨.bytes, true⟩]
  | .pushbytess => [⟨.bytes, true⟩]
  | .branch _ => [⟨.label, false⟩]
  | .switch => [⟨.label, true⟩]
  | .match_ => [⟨.label, true⟩]
  | .replace => [⟨.uint8, false⟩]
  | .extract => [⟨.uint8, false⟩, ⟨.uint8, false⟩]

/-- The rows of a field table that `init` (process.go:64-235) lists for an argument type, each
with the version it puts there. -/
def FieldReader.rows : FieldReader → List (FieldSpec × Nat)
  | .group g => g.specs.map fun s => (s, s.version)
  | .txn .txn => FieldGroup.txn.specs.map fun s => (s, s.version)
  | .txn .txna => (FieldGroup.txn.specs.filter (·.array)).map fun s => (s, s.version)
  | .txn .itxn => (FieldGroup.txn.specs.filter fun s => s.itxVersion > 0).map fun s => (s, s.itxVersion)

/-- The table an argument type takes its names from. -/
def FieldReader.table : FieldReader → FieldGroup
  | .group g => g
  | .txn _ => .txn

/-- `ArgFieldName` (process.go:2669-2681) with the map `OpValFieldNames`. -/
def argFieldName (t : ArgType) (v : Int) : Bytes :=
  match t with
  | .field r => if r.rows.any fun s => (s.1.field : Int) == v then r.table.str v.toNat else []
  | _ => []

/-- `strconv.Atoi` on a 64-bit platform. -/
def atoi (s : Bytes) : Option Int := parseIntBase 10 64 s

namespace ProcessResult

/-- `SymbolsWithin` (process.go:2599-2609). -/
def symbolsWithin (r : ProcessResult) (rg : Range) : List LabelSym :=
  r.symbols.filter fun s => Overlaps rg s.range

/-- `SymbolRefsWithin` (process.go:2611-2621). -/
def symbolRefsWithin (r : ProcessResult) (rg : Range) : List Token :=
  r.symbolRefs.filter fun t => Overlaps rg t.range

/-- `SymByName` (process.go:2815-2823). -/
def symByName (r : ProcessResult) (name : Bytes) : List LabelSym :=
  r.symbols.filter fun s => s.name == name

/-- `SymRefByName` (process.go:2825-2833). -/
def symRefByName (r : ProcessResult) (name : Bytes) : List Token :=
  r.symbolRefs.filter fun t => t.v == name

/-- `SymbolsForRefWithin` (process.go:2581-2597). -/
def symbolsForRefWithin (r : ProcessResult) (rg : Range) : List LabelSym :=
  match r.symbolRefsWithin rg with
  | [] => []
  | ref :: _ => r.symbols.filter fun s => s.name == ref.v

/-- `SymOrRefAt` (process.go:2835-2849). -/
def symOrRefAt (r : ProcessResult) (rg : Range) : Bytes :=
  match r.symbols.find? fun s => Overlaps rg s.range with
  | some s => s.name
  | none =>
    match r.symbolRefs.find? fun t => Overlaps rg t.range with
    | some t => t.v
    | none => []

end ProcessResult

/-- `NamedInlayHint` (process.go:2640-2643). -/
structure NamedHint where
  t : Token
  name : Bytes
deriving DecidableEq, Repr

/-- `DecodedInlayHint` (process.go:2645-2648). -/
structure DecodedHint where
  t : Token
  value : Bytes
deriving DecidableEq, Repr

/-- The first function literal in `InlayHints` (process.go:2705-2736). -/
def namedHint (args : List ArgInfo) (i : Nat) (tok : Token) : Option NamedHint :=
  if i = 0 then none
  else
    match args[i - 1]? with
    | none => none
    | some arg =>
      match atoi tok.v with
      | none => none
      | some iv =>
        let name := argFieldName arg.type iv
        if name = [] then none else some ⟨tok, name⟩

/-- The test on the decoded string (process.go:2755-2762).  A byte outside ASCII decodes to a
rune above `unicode.MaxASCII`. -/
def isPrintASCII (s : Bytes) : Bool := s.all fun c => 0x20 ≤ c && c ≤ 0x7E

/-- The second function literal in `InlayHints` (process.go:2738-2768). -/
def decodedHint (tok : Token) : Option DecodedHint :=
  if tok.t ≠ .value then none
  else if P.hasPrefix tok.v b!"0x" then
    match hexDecode (tok.v.drop 2) with
    | none => none
    | some ds => if isPrintASCII ds then some ⟨tok, ds⟩ else none
  else none

/-- `spec.Args` of the line's first word (process.go:2694-2699); the lookup ignores the
version. -/
def lineArgs (ln : List Token) : Option (List ArgInfo) :=
  match ln with
  | [] => none
  | t :: _ => (opsGet t.v).map fun e => e.shape.args

/-- The body of the loop over the lines (process.go:2692-2770). -/
def lineHints (rg : Range) (ln : List Token) : List NamedHint × List DecodedHint :=
  let toks := ln.zipIdx.filter fun p => Overlaps p.1.range rg
  ((match lineArgs ln with
    | none => []
    | some args => toks.filterMap fun p => namedHint args p.2 p.1),
   toks.filterMap fun p => decodedHint p.1)

/-- `InlayHints` (process.go:2683-2774); `none`: the slice is indexed with a negative line.  The
lines are those from the first to the last of the range, as far as the text has them. -/
def inlayHints (r : ProcessResult) (rg : Range) : Option (List NamedHint × List DecodedHint) :=
  if rg.startLine < 0 ∧ rg.startLine ≤ rg.endLine then none
  else
    let hs := ((r.lines.take (rg.endLine + 1).toNat).drop rg.startLine.toNat).map (lineHints rg)
    some (hs.flatMap (·.1), hs.flatMap (·.2))

/-- `ImmAt` (process.go:2516-2526): the index among the operands. -/
def immAt (ln : List Token) (pos : Int) : Option (Token × Nat) :=
  match (ln.drop 1).zipIdx.find? fun p => decide (pos ≥ p.1.b) && decide (pos ≤ p.1.e) with
  | some (t, i) => some (t, i)
  | none => none

/-- What `ArgAt` (process.go:2851-2892) returns: the argument, if `ok`, and the index; the outer
`none` is a panic. -/
def argAt (r : ProcessResult) (l ch : Int) : Option (Option ArgInfo × Int) :=
  if l ≥ r.lines.length then some (none, -1)
  else if l < 0 then none
  else
    match r.lines.getD l.toNat [] with
    | [] => none
    | op :: rest =>
      let curr := match immAt (op :: rest) ch with
        | some (_, i) => i
        | none => rest.length
      match opsGet op.v with
      | none => some (none, -1)
      | some e =>
        let args := e.shape.args
        let curr :=
          if args ≠ [] ∧ curr ≥ args.length ∧ (args.getLast?.map (·.array)).getD false = true
          then args.length - 1 else curr
        if curr ≥ args.length then some (none, curr) else some (args[curr]?, curr)

/-- `opItemArgVal` (process.go:2630-2638); `value` is `none` for `NoValue`.  The documentation is modelled
for labels only. -/
structure ArgVal where
  name : Bytes
  value : Option Nat
  sig : Option (Nat × Nat) := none
  docs : Bytes := []
deriving DecidableEq, Repr

/-- The keys of a map with their values, each once. -/
def GoMap.entries {α : Type} (m : GoMap α) : List (Bytes × α) :=
  (m.map (·.1)).eraseDups.filterMap fun k => (m.get k).map fun v => (k, v)

/-- `ArgVals` (process.go:2776-2813).  Go visits the maps in any order, and built the lists of
`OpArgVals` that way: `order` stands for the order found. -/
def argVals (order : List ArgVal → List ArgVal) (r : ProcessResult) (a : ArgInfo) : List ArgVal :=
  match a.type with
  | .label => r.symbols.map fun s => { name := s.name, value := none, sig := s.sig, docs := s.docs }
  | .constInt =>
    order (((txnTypeMap typeNameDescriptions).entries.filter fun p => p.2 ≠ 0).map fun p => ⟨p.1, some p.2, none, []⟩) ++
      order (onCompletionMap.entries.map fun p => ⟨p.1, some p.2, none, []⟩)
  | .field f =>
    order ((f.rows.filter fun p => r.version ≥ p.2).map fun p => ⟨f.table.str p.1.field, some p.1.field, none, []⟩)
  | _ => []

end Teal
