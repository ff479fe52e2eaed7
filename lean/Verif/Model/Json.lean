import Verif.Model.Utf8
import Verif.Model.Strconv

/-!
# Go's `encoding/json` as the servers use it

`json.Unmarshal` (lsp/lsp.go:690, 2192; dbg/dbg.go:263, 816) and `json.Marshal` (lsp/lsp.go:2119,
dbg/dbg.go:743) are standard library functions, not part of /repo.  They are modelled because every
message passes through them: what a client sends is read from JSON text and what it gets is JSON
text.  The model follows the source of the package as of Go 1.19 (the version in go.mod).
-/

namespace Teal

/-- A JSON value.  Numbers are kept as they are written; strings are Go strings; the members of an
object are in the order of the text. -/
inductive Json where
  | null
  | bool (b : Bool)
  | num (lit : Bytes)
  | str (s : Bytes)
  | arr (vs : List Json)
  | obj (ms : List (Bytes × Json))
deriving Repr

namespace Json

/-- `isSpace` (encoding/json/scanner.go). -/
def isSpace (c : UInt8) : Bool := c = 32 || c = 9 || c = 13 || c = 10

/-- White space is skipped before every token. -/
def skip (s : Bytes) : Bytes := s.dropWhile isSpace

def isDigit (c : UInt8) : Bool := 48 ≤ c && c ≤ 57

/-- The value of a hexadecimal digit (`getu4`, encoding/json/decode.go). -/
def hexVal (c : UInt8) : Option Nat :=
  if 48 ≤ c && c ≤ 57 then some (c.toNat - 48)
  else if 97 ≤ c && c ≤ 102 then some (c.toNat - 87)
  else if 65 ≤ c && c ≤ 70 then some (c.toNat - 55)
  else none

/-- Four hexadecimal digits, and what follows them. -/
def hex4 : Bytes → Option (Nat × Bytes)
  | a :: b :: c :: d :: s =>
    match hexVal a, hexVal b, hexVal c, hexVal d with
    | some a, some b, some c, some d => some (((a * 16 + b) * 16 + c) * 16 + d, s)
    | _, _, _, _ => none
  | _ => none

/-- `utf8.EncodeRune` of a number that is not a surrogate. -/
def encodeRune (r : Nat) : Bytes :=
  if r < 0x80 then [r.toUInt8]
  else if r < 0x800 then [(0xC0 + r / 64).toUInt8, (0x80 + r % 64).toUInt8]
  else if r < 0x10000 then [(0xE0 + r / 4096).toUInt8, (0x80 + r / 64 % 64).toUInt8, (0x80 + r % 64).toUInt8]
  else [(0xF0 + r / 262144).toUInt8, (0x80 + r / 4096 % 64).toUInt8, (0x80 + r / 64 % 64).toUInt8, (0x80 + r % 64).toUInt8]

/-- `utf16.IsSurrogate`. -/
def isSurrogate (r : Nat) : Bool := 0xD800 ≤ r && r < 0xE000

/-- A `\u` escape behind its first four digits (`unquoteBytes`, encoding/json/decode.go): a surrogate
is joined with the escape that follows if they are a pair, and otherwise replaced by U+FFFD. -/
def unescapeU (r : Nat) (s : Bytes) : Bytes × Bytes :=
  if isSurrogate r then
    match s with
    | 92 :: 117 :: t =>
      match hex4 t with
      | some (r2, u) =>
        if r < 0xDC00 && (0xDC00 ≤ r2 && r2 < 0xE000) then
          (encodeRune ((r - 0xD800) * 1024 + (r2 - 0xDC00) + 0x10000), u)
        else (encodeRune runeError, s)
      | none => (encodeRune runeError, s)
    | _ => (encodeRune runeError, s)
  else (encodeRune r, s)

/-- The one-letter escapes. -/
def escapeOf (c : UInt8) : Option UInt8 :=
  if c = 34 ∨ c = 92 ∨ c = 47 then some c
  else if c = 98 then some 8
  else if c = 102 then some 12
  else if c = 110 then some 10
  else if c = 114 then some 13
  else if c = 116 then some 9
  else none

/-- The rest of a string literal behind the opening quote, and what follows the closing quote: the
states `stateInString…` of the scanner and `unquoteBytes`.  Each round reads at least one byte. -/
def unquote : Nat → Bytes → Option (Bytes × Bytes)
  | 0, _ => none
  | _ + 1, [] => none
  | fuel + 1, c :: s =>
    if c = 34 then some ([], s)
    else if c = 92 then
      match s with
      | [] => none
      | e :: t =>
        if e = 117 then
          match hex4 t with
          | none => none
          | some (r, u) =>
            let x := unescapeU r u
            (unquote fuel x.2).map fun y => (x.1 ++ y.1, y.2)
        else
          match escapeOf e with
          | none => none
          | some b => (unquote fuel t).map fun y => (b :: y.1, y.2)
    else if c < 32 then none
    else if c < 128 then (unquote fuel s).map fun y => (c :: y.1, y.2)
    else
      let x := decodeRune (c :: s)
      (unquote fuel ((c :: s).drop x.2)).map fun y => (encodeRune x.1 ++ y.1, y.2)

/-- The digits at the start of a text; there must be one. -/
def digits (s : Bytes) : Option (Bytes × Bytes) :=
  if s.takeWhile isDigit = [] then none else some (s.takeWhile isDigit, s.dropWhile isDigit)

/-- The whole part of a number: `0`, or digits that do not start with `0`. -/
def wholePart : Bytes → Option (Bytes × Bytes)
  | 48 :: s => some ([48], s)
  | s => digits s

/-- The fraction of a number, if there is one. -/
def fractionPart : Bytes → Option (Bytes × Bytes)
  | 46 :: s => (digits s).map fun x => (46 :: x.1, x.2)
  | s => some ([], s)

/-- The digits of an exponent, with a sign or without. -/
def exponentDigits : Bytes → Option (Bytes × Bytes)
  | c :: s => if c = 43 ∨ c = 45 then (digits s).map fun x => (c :: x.1, x.2) else digits (c :: s)
  | [] => none

/-- The exponent of a number, if there is one. -/
def exponentPart : Bytes → Option (Bytes × Bytes)
  | c :: s => if c = 101 ∨ c = 69 then (exponentDigits s).map fun x => (c :: x.1, x.2) else some ([], c :: s)
  | [] => some ([], [])

/-- A number without its sign. -/
def unsigned (s : Bytes) : Option (Bytes × Bytes) :=
  match wholePart s with
  | none => none
  | some (a, s) =>
    match fractionPart s with
    | none => none
    | some (b, s) => (exponentPart s).map fun x => (a ++ b ++ x.1, x.2)

/-- A number: the states `stateNeg` to `stateE0` of the scanner. -/
def number : Bytes → Option (Bytes × Bytes)
  | 45 :: s => (unsigned s).map fun x => (45 :: x.1, x.2)
  | s => unsigned s

/-- A fixed word at the start of a text. -/
def word (w : Bytes) (v : Json) (s : Bytes) : Option (Json × Bytes) :=
  if w.isPrefixOf s then some (v, s.drop w.length) else none

mutual

/-- A value with the white space before it, and what follows it: `scanner` and `decodeState.value`.
`depth` is how deep arrays and objects may still be nested (`maxNestingDepth`). -/
def value : Nat → Nat → Bytes → Option (Json × Bytes)
  | 0, _, _ => none
  | fuel + 1, depth, s =>
    match skip s with
    | [] => none
    | c :: t =>
      if c = 123 then
        match depth with
        | 0 => none
        | depth + 1 =>
          match skip t with
          | 125 :: u => some (.obj [], u)
          | _ => (members fuel depth t).map fun x => (.obj x.1, x.2)
      else if c = 91 then
        match depth with
        | 0 => none
        | depth + 1 =>
          match skip t with
          | 93 :: u => some (.arr [], u)
          | _ => (elements fuel depth t).map fun x => (.arr x.1, x.2)
      else if c = 34 then (unquote (t.length + 1) t).map fun x => (.str x.1, x.2)
      else if c = 116 then word b!"true" (.bool true) (c :: t)
      else if c = 102 then word b!"false" (.bool false) (c :: t)
      else if c = 110 then word b!"null" .null (c :: t)
      else (number (c :: t)).map fun x => (.num x.1, x.2)

/-- The elements of an array and the bracket behind them. -/
def elements : Nat → Nat → Bytes → Option (List Json × Bytes)
  | 0, _, _ => none
  | fuel + 1, depth, s =>
    match value fuel depth s with
    | none => none
    | some (v, s) =>
      match skip s with
      | 44 :: t => (elements fuel depth t).map fun x => (v :: x.1, x.2)
      | 93 :: t => some ([v], t)
      | _ => none

/-- The members of an object and the brace behind them. -/
def members : Nat → Nat → Bytes → Option (List (Bytes × Json) × Bytes)
  | 0, _, _ => none
  | fuel + 1, depth, s =>
    match skip s with
    | 34 :: t =>
      match unquote (t.length + 1) t with
      | none => none
      | some (k, s) =>
        match skip s with
        | 58 :: t =>
          match value fuel depth t with
          | none => none
          | some (v, s) =>
            match skip s with
            | 44 :: t => (members fuel depth t).map fun x => ((k, v) :: x.1, x.2)
            | 125 :: t => some ([(k, v)], t)
            | _ => none
        | _ => none
    | _ => none

end

/-- `maxNestingDepth` (encoding/json/scanner.go). -/
def maxDepth : Nat := 10000

/-- A text that is one value (`checkValid`, encoding/json/scanner.go, and the value itself).  A
value of `n` bytes takes at most `2 * n` rounds. -/
def parse (s : Bytes) : Option Json :=
  match value (2 * s.length + 2) maxDepth s with
  | some (v, rest) => if skip rest = [] then some v else none
  | none => none

/-- A hexadecimal digit (`hex`, encoding/json/encode.go). -/
def hexDigit (n : Nat) : UInt8 := if n < 10 then (48 + n).toUInt8 else (87 + n).toUInt8

/-- The loop of `encodeState.string` (encoding/json/encode.go), with HTML escaping.  Each round reads
at least one byte. -/
def quoteLoop : Nat → Bytes → Bytes
  | 0, _ => []
  | _ + 1, [] => []
  | fuel + 1, c :: s =>
    if c < 128 then
      (if c = 92 ∨ c = 34 then [92, c]
        else if c = 10 then b!"\\n"
        else if c = 13 then b!"\\r"
        else if c = 9 then b!"\\t"
        else if c < 32 ∨ c = 60 ∨ c = 62 ∨ c = 38 then b!"\\u00" ++ [hexDigit (c.toNat / 16), hexDigit (c.toNat % 16)]
        else [c]) ++ quoteLoop fuel s
    else
      let x := decodeRune (c :: s)
      (if x.1 = runeError ∧ x.2 = 1 then b!"\\ufffd"
        else if x.1 = 0x2028 ∨ x.1 = 0x2029 then b!"\\u202" ++ [hexDigit (x.1 % 16)]
        else (c :: s).take x.2) ++ quoteLoop fuel ((c :: s).drop x.2)

/-- A string as JSON text. -/
def quote (s : Bytes) : Bytes := 34 :: quoteLoop s.length s ++ [34]

mutual

/-- `json.Marshal` of a value. -/
def text : Json → Bytes
  | .null => b!"null"
  | .bool b => if b then b!"true" else b!"false"
  | .num lit => lit
  | .str s => quote s
  | .arr vs => 91 :: textElements vs ++ [93]
  | .obj ms => 123 :: textMembers ms ++ [125]

/-- The elements of an array, with commas between them. -/
def textElements : List Json → Bytes
  | [] => []
  | [v] => text v
  | v :: vs => text v ++ 44 :: textElements vs

/-- The members of an object, with commas between them. -/
def textMembers : List (Bytes × Json) → Bytes
  | [] => []
  | [m] => quote m.1 ++ 58 :: text m.2
  | m :: ms => quote m.1 ++ 58 :: text m.2 ++ 44 :: textMembers ms

end

/-- Where the scanner is while a text is indented: outside of strings, in one, behind a backslash in
one. -/
inductive Place where
  | out
  | str
  | esc
deriving DecidableEq, Repr

/-- `newline` (encoding/json/indent.go) with an empty prefix. -/
def newline (tab : Bytes) (depth : Nat) : Bytes := 10 :: (List.replicate depth tab).flatten

/-- `json.Indent` (encoding/json/indent.go) with an empty prefix, on a text that is JSON: `need` is
`needIndent`.  Of the scanner's states only those are kept that make a difference for such texts:
white space is skipped outside of strings, and what is in strings is copied. -/
def indent (tab : Bytes) : Place → Bool → Nat → Bytes → Bytes
  | _, _, _, [] => []
  | .str, _, d, c :: s => c :: indent tab (if c = 34 then .out else if c = 92 then .esc else .str) false d s
  | .esc, _, d, c :: s => c :: indent tab .str false d s
  | .out, need, d, c :: s =>
    if isSpace c then indent tab .out need d s
    else if c = 125 || c = 93 then
      if need then c :: indent tab .out false d s
      else newline tab (d - 1) ++ c :: indent tab .out false (d - 1) s
    else
      let d' := if need then d + 1 else d
      (if need then newline tab d' else []) ++
        if c = 123 || c = 91 then c :: indent tab .out true d' s
        else if c = 44 then c :: newline tab d' ++ indent tab .out false d' s
        else if c = 58 then c :: 32 :: indent tab .out false d' s
        else c :: indent tab (if c = 34 then .str else .out) false d' s

/-- `json.MarshalIndent` with an empty prefix. -/
def indented (tab : Bytes) (j : Json) : Bytes := indent tab .out false 0 j.text

end Json

end Teal
