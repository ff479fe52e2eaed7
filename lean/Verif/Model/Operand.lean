import Verif.Model.Signature
import Verif.Model.Process
import Verif.Model.Message

/-!
# Model: what is said about operands

The messages of the `parseError`s about operands.  `Model/Parse` reads a line without the names the
parse functions give to their operands; here the operands of an opcode are read again, with their
names, and the first error is kept with its text.  That both readings find the same error at the same
word is proved (`walks_shape` in Lemmas/Operand).
-/

namespace Teal

/-- The texts of the errors of the libraries and of `parseStringLiteral` (go_algorand.go:309-375): `Error()`
of what `strconv.ParseUint` (with base 10 and 8 bits, and with base 0 and 64 bits) and `strconv.ParseInt`
return for a word, the decoders of base32, base64 and hex for a text, `parseStringLiteral` for a word and
`types.DecodeAddress` for a word. -/
structure ErrorTexts where
  uint8 : Bytes → Bytes
  uint64 : Bytes → Bytes
  int8 : Bytes → Bytes
  base32 : Bytes → Bytes
  base64 : Bytes → Bytes
  hex : Bytes → Bytes
  string : Bytes → Bytes
  addr : Bytes → Bytes

/-- The text of parser.go:100 (119, 138, 157, 176, 195, 214, 232, 251, 270, 306 and 353). -/
def needText (needed v : Nat) : Bytes :=
  b!"not available in this version (need >= " ++ formatUint needed ++ b!", got: " ++ formatUint v ++ b!")"

/-- The error of `readField` (parser.go:95-282, 348-365): the message of the second `return` with an error is
the same in all of them. -/
def fieldError (e : ErrorTexts) (g : FieldGroup) (v : Nat) (s : Bytes) : Option Bytes :=
  match g.specByName.get s with
  | some spec => if spec.version > v then some (needText spec.version v) else none
  | none => if readUint8 s = none then some (b!"failed to parse txn field: " ++ e.uint8 s) else none

/-- The error of `readTxnField` (parser.go:284-318). -/
def txnFieldError (e : ErrorTexts) (c : FieldContext) (v : Nat) (s : Bytes) : Option Bytes :=
  match FieldGroup.txn.specByName.get s with
  | some spec =>
    if c = .txna ∧ spec.array = false then some b!"not available in array context"
    else if c = .itxn ∧ spec.itxVersion = 0 then some b!"not available for internal transactions"
    else
      let needed :=
        match c with
        | .txn => spec.version
        | .itxn => spec.itxVersion
        | .txna => 0
      if needed > v then some (needText needed v) else none
  | none => if readUint8 s = none then some (b!"failed to parse txn field: " ++ e.uint8 s) else none

/-- The text `errors.Wrapf` puts in front (process.go:1204, 1219, 1234, 1250 and 1351); the other
`mustRead…Field` methods pass the error on (998-1104, 1140-1155). -/
def FieldReader.prefix_ (name : Bytes) : FieldReader → Bytes
  | .txn _ => b!"failed to parse txn field: " ++ name ++ b!": "
  | .group .ecGroup => b!"failed to parse EC group field: " ++ name ++ b!": "
  | .group .base64 => b!"failed to parse base64 encoding field: " ++ name ++ b!": "
  | .group .jsonRef => b!"failed to parse JSON ref field: " ++ name ++ b!": "
  | .group .ecdsa => b!"failed to parse ESCDS curve index: " ++ name ++ b!": "
  | .group _ => []

/-- The error of the reader functions of parser.go. -/
def readerError (e : ErrorTexts) (r : FieldReader) (v : Nat) (s : Bytes) : Option Bytes :=
  match r with
  | .group g => fieldError e g v s
  | .txn c => txnFieldError e c v s

/-- The words that say how the next one is to be decoded. -/
def encodingWords : List Bytes := [b!"base32", b!"b32", b!"base64", b!"b64"]

/-- The error of `parseBytes` (process.go:1262-1345) at the word `arg` with the words `ws` behind it, and how
many words there are from the one it is reported at. -/
def bytesError (e : ErrorTexts) (arg : Bytes) (ws : List Bytes) : Option (Nat × ParseWhy × Bytes) :=
  let here (m : Bytes) : Option (Nat × ParseWhy × Bytes) := some (ws.length + 1, .badBytes, m)
  if P.hasPrefix arg b!"base32(" || P.hasPrefix arg b!"b32(" then
    match P.parenBody arg with
    | none => here b!"byte base32 arg lacks close paren"
    | some s => if base32DecodeAnyPadding s = none then here (e.base32 s) else none
  else if P.hasPrefix arg b!"base64(" || P.hasPrefix arg b!"b64(" then
    match P.parenBody arg with
    | none => here b!"byte base64 arg lacks close paren"
    | some s => if b64Decode s = none then here (e.base64 s) else none
  else if P.hasPrefix arg b!"0x" then
    if hexDecode (arg.drop 2) = none then here (e.hex (arg.drop 2)) else none
  else if arg = b!"base32" ∨ arg = b!"b32" then
    match ws with
    | [] => some (1, .missingArg, b!"missing arg: literal")
    | w :: ws' => if base32DecodeAnyPadding w = none then some (ws'.length + 1, .badBytes, e.base32 w) else none
  else if arg = b!"base64" ∨ arg = b!"b64" then
    match ws with
    | [] => some (1, .missingArg, b!"missing arg: literal")
    | w :: ws' => if b64Decode w = none then some (ws'.length + 1, .badBytes, e.base64 w) else none
  else if arg.length > 1 ∧ arg.head? = some chQuote ∧ arg.getLast? = some chQuote then
    match parseStringLiteral arg with
    | .ok _ => none
    | _ => here (e.string arg)
  else here (b!"byte arg did not parse: " ++ arg)

/-- The error of reading an operand called `name` at the word `w` with the words `ws` behind it: `parseUint64`,
`parseConstUint64`, `parseUint8` and `parseInt8` (process.go:1157-1199), the readers of fields (998-1104,
1140-1155, 1201-1260, 1347-1361), `parseBytes`, `mustReadAddr` (964-975) and `mustReadSignature` (977-992). -/
def argError (e : ErrorTexts) (addrOk : Bytes → Bool) (v : Nat) (name : Bytes) (ty : ArgType) (w : Bytes) (ws : List Bytes) :
    Option (Nat × ParseWhy × Bytes) :=
  let n := ws.length + 1
  match ty with
  | .constInt => if readConstInt w = none then some (n, .badUint64, b!"failed to parse uint64: " ++ name ++ b!": " ++ e.uint64 w) else none
  | .uint64 => if readInt w = none then some (n, .badUint64, b!"failed to parse uint64: " ++ name ++ b!": " ++ e.uint64 w) else none
  | .uint8 => if readUint8 w = none then some (n, .badUint8, b!"failed to parse uint8: " ++ name ++ b!": " ++ e.uint8 w) else none
  | .int8 => if readInt8 w = none then some (n, .badInt8, b!"failed to parse int8: " ++ name ++ b!": " ++ e.int8 w) else none
  | .bytes => bytesError e w ws
  | .label => none
  | .signature => if w.head? = some chQuote ∧ w.getLast? = some chQuote then none else some (n, .missingQuotes, b!"missing quotes")
  | .addr => if addrOk w then none else some (n, .badAddr, e.addr w)
  | .field r => (readerError e r v w).map fun m => (n, .badField, r.prefix_ name ++ m)

/-- Whether an operand takes two words. -/
def takesTwo (ty : ArgType) (w : Bytes) : Bool := ty == .bytes && encodingWords.contains w

/-- The first error of reading operands: how many words there are from the one it is reported at, and its
text.  With `skip` the next word belongs to the operand before.  An operand that is missing is an error
(`mustReadArg`, process.go:931-935) unless it is read by a loop (1106-1138) or by `maybeReadUint8`
(1383-1390), behind which nothing is read if it is missing (1784-1793, 1800-1809, 1838-1849, 2006-2025). -/
def walkArgs (e : ErrorTexts) (addrOk : Bytes → Bool) (v : Nat) : List DocArg → Bool → List Bytes → Option (Nat × ParseWhy × Bytes)
  | [], _, [] => none
  | a :: _, _, [] => if a.array || a.optional then none else some (1, .missingArg, b!"missing arg: " ++ a.name)
  | as, true, _ :: ws => walkArgs e addrOk v as false ws
  | [], false, _ :: _ => none
  | a :: as, false, w :: ws =>
    match argError e addrOk v a.name a.type w ws with
    | some x => some x
    | none =>
      let as' := if a.array then a :: as else as
      walkArgs e addrOk v as' (takesTwo a.type w) ws

/-- The operands a parse function reads, with the names it gives to them and whether it reads them with
`maybeReadUint8`: what `docContext` is told (process.go:591-835), before `arg` (555-563). -/
def OpEntry.readArgs (e : OpEntry) : List DocArg :=
  (((operandNames.find? fun p => p.1 == e.name).map (·.2)).getD []).zip (e.shape.args.zip e.shape.optionals) |>.map
    fun p => ⟨p.1, p.2.1.type, p.2.1.array, p.2.2⟩

/-- The operands of `#pragma version` (`mustReadPragma`, process.go:937-962): a name and a number.  Other names
are not errors of operands. -/
def pragmaError (e : ErrorTexts) : List Bytes → Option (Nat × ParseWhy × Bytes)
  | [] => some (1, .missingArg, b!"missing arg: name")
  | [w] => if w = b!"version" then some (1, .missingArg, b!"missing arg: version value") else none
  | w :: x :: ws =>
    if w = b!"version" ∧ readInt x = none then some (ws.length + 1, .badUint64, b!"failed to parse uint64: version value: " ++ e.uint64 x)
    else none

/-- The error about an operand of a line with the words `w :: ws`, read at version `v`. -/
def operandError (e : ErrorTexts) (addrOk : Bytes → Bool) (v : Nat) (w : Bytes) (ws : List Bytes) : Option (Nat × ParseWhy × Bytes) :=
  if w.getLast? = some chColon then none
  else if w = b!"#pragma" then pragmaError e ws
  else
    match opsGet w with
    | some en => walkArgs e addrOk v en.readArgs false ws
    | none => none

/-- The errors about operands of the lines; the version is carried from line to line
(process.go:3175-3298). -/
def operandErrors (e : ErrorTexts) (addrOk : Bytes → Bool) : Carry → List (List Token) → List (Option (Nat × ParseWhy × Bytes))
  | _, [] => []
  | s, l :: ls =>
    (match l with
      | [] => none
      | t :: ts => if t.t = .comment then none else operandError e addrOk s.version t.v (ts.map Token.v)) ::
    match processLine addrOk s l with
    | none => []
    | some o => operandErrors e addrOk o.next ls

/-- The text of the error about an operand on line `l` of `src`.  A line has at most one, since such an error ends
the reading of the line (process.go:3276-3284). -/
def operandText (e : ErrorTexts) (addrOk : Bytes → Bool) (src : Bytes) (l : Nat) : Bytes :=
  (((operandErrors e addrOk {} (sourceLines (readTokens src).1))[l]?.getD none).map (·.2.2)).getD []

/-- `String` of a diagnostic of `src` (`lineError`, parser.go:65-67: the text of the error). -/
def Diag.text (e : ErrorTexts) (addrOk : Bytes → Bool) (src : Bytes) (d : Diag) : Bytes :=
  d.kind.text (operandText e addrOk src d.l)

end Teal
