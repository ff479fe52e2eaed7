import Verif.Model.Linter

/-!
# `Process` (`process.go:3132-3365`)
-/

namespace Teal

/-- What `Process` depends on besides the text: which addresses the Algorand SDK accepts, and
the order in which Go visits maps. -/
structure Env where
  addrOk : Bytes → Bool
  maps : MapOrder

/-- The UTF-8 encodings of the code points of `unicode.IsSpace`. -/
def spaceEncodings : List Bytes :=
  [[9], [10], [11], [12], [13], [32], [0xC2, 0x85], [0xC2, 0xA0], [0xE1, 0x9A, 0x80],
   [0xE2, 0x80, 0x80], [0xE2, 0x80, 0x81], [0xE2, 0x80, 0x82], [0xE2, 0x80, 0x83],
   [0xE2, 0x80, 0x84], [0xE2, 0x80, 0x85], [0xE2, 0x80, 0x86], [0xE2, 0x80, 0x87],
   [0xE2, 0x80, 0x88], [0xE2, 0x80, 0x89], [0xE2, 0x80, 0x8A], [0xE2, 0x80, 0xA8],
   [0xE2, 0x80, 0xA9], [0xE2, 0x80, 0xAF], [0xE2, 0x81, 0x9F], [0xE3, 0x80, 0x80]]

/-- Drop encodings from `encs` from the front as long as there is one. -/
def trimWith (encs : List Bytes) : Nat → Bytes → Bytes
  | 0, s => s
  | fuel + 1, s =>
    match encs.find? fun e => e.isPrefixOf s with
    | some e => trimWith encs fuel (s.drop e.length)
    | none => s

/-- `strings.TrimSpace`.  Go decodes runes from both ends; a white space rune is decoded there
exactly if the string starts (ends) with its encoding, which is what is used here. -/
def trimSpace (s : Bytes) : Bytes :=
  let t := trimWith spaceEncodings s.length s
  (trimWith (spaceEncodings.map List.reverse) t.length t.reverse).reverse

/-- `Line.Begin` (process.go:2498-2505). -/
def lineBegin (ln : List Token) : Nat := (ln.head?.map Token.b).getD 0

/-- `Line.End` (process.go:2507-2514). -/
def lineEnd (ln : List Token) : Nat := (ln.getLast?.map Token.e).getD 0

/-- The loop of process.go:3146-3162: the tokens between the end-of-line tokens; `cur` is
`ts[p:i]`. -/
def splitTokens : List Token → List Token → List (List Token)
  | cur, [] => if cur = [] then [] else [cur]
  | cur, t :: ts => if t.t = .eol then cur :: splitTokens [] ts else splitTokens (cur ++ [t]) ts

/-- The body of the loop of process.go:3164-3171: the last comment, unless it is the first
token, and everything behind it is dropped. -/
def cutComment (l : List Token) : List Token :=
  match (List.range l.length).reverse.find? fun i =>
      1 ≤ i && decide ((l.getD i .zero).t = .comment) with
  | some i => l.take i
  | none => l

/-- The lines `Process` reads. -/
def sourceLines (ts : List Token) : List (List Token) := (splitTokens [] ts).map cutComment

/-- What is carried from line to line. -/
structure Carry where
  version : Nat := 1
  mode : ProgramMode := .app
  comments : List Bytes := []
deriving DecidableEq, Repr

/-- What one round of the loop of process.go:3178-3298 does. -/
structure LineOut where
  /-- `version`, `mode` and `comments` after the line -/
  next : Carry
  /-- what was appended to the slices of the context -/
  ctx : LineCtx
  /-- appended to `ops` -/
  opTok : Option Token := none
  /-- appended to `lsyms` -/
  sym : Option LabelSym := none
  /-- appended to `vers` -/
  ver : Option RequiredVersion := none
deriving DecidableEq, Repr

/-- `strings.Join(ss, "\n")`. -/
def joinLF : List Bytes → Bytes
  | [] => []
  | [s] => s
  | s :: ss => s ++ chLF :: joinLF ss

/-- The condition of process.go:3285. -/
def P.hasMore : P Bool := fun c => .ok (decide (c.i < c.ts.length)) c

/-- `info.Parse(c)` and the check behind it (process.go:3284-3289). -/
def parseOp (addrOk : Bytes → Bool) (e : OpEntry) : P Unit := do
  P.parseShape addrOk e.shape
  let more ← P.hasMore
  if more then
    let ok ← P.scan
    if ok then P.failCurr .tooManyValues else pure ()
  else pure ()

/-- The deferred function of process.go:3182-3191: a recoverable panic emits `Empty`, any other
panic goes on. -/
def recovered : Out Unit → Option LineCtx
  | .ok _ c => some c
  | .fail c => some { c with ops := c.ops ++ [.empty] }
  | .crash => none

/-- The diagnostics of process.go:3253-3272. -/
def availDiags (mode : ProgramMode) (min version : Nat) (curr : Token) : List Diag :=
  (if min = 0 then [⟨.mode mode, curr.l, curr.b, curr.e⟩] else []) ++
  (if min > version then [⟨.version min version, curr.l, curr.b, curr.e⟩] else [])

/-- One round of the loop of process.go:3178-3298; `none` is a panic. -/
def processLine (addrOk : Bytes → Bool) (s : Carry) (ts : List Token) : Option LineOut :=
  match ts with
  | [] => some { next := s, ctx := { ts := ts, i := 1, version := s.version, ops := [.empty] } }
  | curr :: _ =>
    let c : LineCtx := { ts := ts, i := 1, version := s.version }
    if curr.t = .comment then
      if trimSpace curr.v = b!"#pragma mode logicsig" then
        some { next := { s with mode := .sig }, ctx := { c with ops := [.empty] } }
      else
        some { next := { s with comments := s.comments ++ [curr.v] },
               ctx := { c with ops := [.empty] } }
    else if curr.v.getLast? = some chColon then
      let name := curr.v.dropLast
      if name = [] then
        (recovered (P.failCurr .missingLabelName c)).map fun c => { next := s, ctx := c }
      else
        some { next := { s with comments := [] },
               ctx := { c with ops := [.label name] },
               sym := some { name := name, l := curr.l, b := curr.b, e := curr.e,
                             docs := joinLF s.comments } }
    else if curr.v = [] then
      some { next := s, ctx := { c with ops := [.empty] } }
    else if curr.v = b!"#pragma" then
      (recovered (P.opPragma c)).map fun c => { next := { s with version := c.version }, ctx := c }
    else
      match opsGet curr.v with
      | some e =>
        let min := e.minVersion s.mode
        (recovered (parseOp addrOk e { c with diag := availDiags s.mode min s.version curr })).map fun c =>
          { next := s, ctx := c, opTok := some curr,
            ver := if min > s.version then some ⟨curr.l, lineBegin ts, lineEnd ts, min⟩
                   else none }
      | none => (recovered (P.failCurr (.unknownOpcode curr.v) c)).map fun c => { next := s, ctx := c }

/-- The loop of process.go:3178-3298 over all lines. -/
def processLines (addrOk : Bytes → Bool) : Carry → List (List Token) → Option (List LineOut)
  | _, [] => some []
  | s, l :: ls =>
    match processLine addrOk s l with
    | none => none
    | some o =>
      match processLines addrOk o.next ls with
      | none => none
      | some os => some (o :: os)

/-- `ProcessResult` (process.go:2554-2583), without `Tokens` and `RefCounts`, which are
`(readTokens source).1` and `refCount`. -/
structure ProcessResult where
  mode : ProgramMode
  version : Nat
  versionToken : Option Token
  versions : List RequiredVersion
  diagnostics : List Diag
  missRefs : List Token
  symbols : List LabelSym
  symbolRefs : List Token
  listing : List Op
  lines : List (List Token)
  ops : List Token
  numbers : List Token
  strings : List Token
  keywords : List Token
  macros : List Token
  redundants : List RedundantLine
deriving DecidableEq, Repr

/-- `c.refc[name]` after `emit` was called on the instructions (process.go:890-895). -/
def refCount (l : List Op) (name : Bytes) : Nat := ((l.flatMap Op.labels).filter (· == name)).length

/-- `c.label` and `c.protos` after `emit` was called on the instructions
(process.go:897-904). -/
def protosStep (s : Option Bytes × GoMap (Nat × Nat)) : Op → Option Bytes × GoMap (Nat × Nat)
  | .u8u8 .proto a r =>
    match s.1 with
    | some n => (s.1, s.2.set n (a, r))
    | none => s
  | .label n => (some n, s.2)
  | _ => s

/-- `c.protos` after `emit` was called on the instructions. -/
def protosOf (l : List Op) : GoMap (Nat × Nat) := (l.foldl protosStep (none, [])).2

/-- The loop of process.go:3303-3313; `lts[le.Line()]` panics for a line that is not there. -/
def lintDiags (lts : List (List Token)) : List LintErr → Option (List Diag)
  | [] => some []
  | le :: les =>
    match lts[le.l]? with
    | none => none
    | some ln =>
      match lintDiags lts les with
      | none => none
      | some ds => some (⟨.lint le.rule, le.l, lineBegin ln, lineEnd ln⟩ :: ds)

/-- A `lexerError` as a `Diagnostic` (lexer.go:127-156). -/
def lexDiag (e : LexError) : Diag := ⟨.lex e.msg, e.l, e.li, e.li⟩

/-- The part of `Process` behind the loop (process.go:3300-3364). -/
def assemble (env : Env) (lexErrs : List LexError) (lts : List (List Token))
    (os : List LineOut) : Option ProcessResult :=
  let ops := os.flatMap (·.ctx.ops)
  let last := (os.getLast?.map (·.next)).getD {}
  let refs := os.flatMap (·.ctx.refs)
  let lsyms := os.filterMap (·.sym)
  (lintDiags lts (lintErrs env.maps ops)).map fun lds =>
    { mode := last.mode
      version := last.version
      versionToken := (os.filterMap (·.ctx.vtok)).getLast?
      versions := os.filterMap (·.ver)
      diagnostics := lexErrs.map lexDiag ++ os.flatMap (·.ctx.diag) ++ lds
      missRefs := refs.filter fun r => !(lsyms.any fun s => s.name == r.v)
      symbols := lsyms.map fun s => { s with sig := (protosOf ops).get s.name }
      symbolRefs := refs
      listing := ops
      lines := lts
      ops := os.filterMap (·.opTok)
      numbers := os.flatMap (·.ctx.nums)
      strings := os.flatMap (·.ctx.strs)
      keywords := os.flatMap (·.ctx.keys)
      macros := os.flatMap (·.ctx.mcrs)
      redundants := lintReds env.maps ops }

/-- `Process` (process.go:3132-3365); `none` is a panic. -/
def process (env : Env) (source : Bytes) : Option ProcessResult :=
  let (ts, errs) := readTokens source
  let lts := sourceLines ts
  match processLines env.addrOk {} lts with
  | none => none
  | some os => assemble env errs lts os

end Teal
