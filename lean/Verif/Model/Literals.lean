import Verif.Model.Strconv

/-!
# Constants in the source text

`go_algorand.go`'s string literal decoder, and the standard library decoders
(`encoding/hex`, `encoding/base32`, `encoding/base64`) `parseBytes` calls.  The standard
library is not part of /repo; it is modelled from Go's published source.
-/

namespace Teal

/-- What a Go call that may panic gives: a value, an error value, or a panic. -/
inductive Res (α : Type) where
  | ok (a : α)
  | err
  | crash
deriving DecidableEq, Repr

/-- The escapes of one character (go_algorand.go:335-345). -/
def simpleEscape (c : UInt8) : Option UInt8 :=
  if c = 110 then some 10
  else if c = 114 then some 13
  else if c = 116 then some 9
  else if c = 92 then some 92
  else if c = 34 then some 34
  else none

/-- The loop of `parseStringLiteral` (go_algorand.go:321-374).  The list is
`input[pos:end]`, the part of the literal not yet read without the closing quote, so that
`pos < end` means the list is not empty and `pos >= len(input)-2` (line 356) means that it has
at most one element.  `esc` and `hex` are `escapeSeq` and `hexSeq`; the result is `none` for
an error.  Both `pos++` of the `\xHH` case drop a byte here. -/
def stringLoop : Bytes → Bool → Bool → Option Bytes
  | [], esc, hex => if esc || hex then none else some []
  | char :: rest, esc, hex =>
    if char = chBackslash ∧ esc = false then
      if hex then none else stringLoop rest true hex
    else
      -- lines 333-353: `some none` is the `continue` of the `\x` case
      let escaped : Option (Option UInt8) :=
        if esc then
          if char = 120 then some none else (simpleEscape char).map some
        else some (some char)
      match escaped with
      | none => none
      | some none => stringLoop rest false true
      | some (some char) =>
        if hex then
          match rest with
          | [] => none
          | second :: rest =>
            match parseUintBase 16 8 [char, second] with
            | none => none
            | some num => (stringLoop rest false false).map (UInt8.ofNat num :: ·)
        else (stringLoop rest false false).map (char :: ·)

/-- `parseStringLiteral` (go_algorand.go:309-375).  Indexing an empty string panics. -/
def parseStringLiteral (input : Bytes) : Res Bytes :=
  match input.head?, input.getLast? with
  | some first, some last =>
    if first ≠ chQuote ∨ last ≠ chQuote then .err
    else
      -- `input[start:end]` with start = 1 and end = len(input)-1
      match stringLoop ((input.take (input.length - 1)).drop 1) false false with
      | some r => .ok r
      | none => .err
  | _, _ => .crash

/-- encoding/hex: the value of a hex digit (`reverseHexTable`). -/
def hexVal (c : UInt8) : Option Nat :=
  if 48 ≤ c ∧ c ≤ 57 then some (c.toNat - 48)
  else if 97 ≤ c ∧ c ≤ 102 then some (c.toNat - 97 + 10)
  else if 65 ≤ c ∧ c ≤ 70 then some (c.toNat - 65 + 10)
  else none

/-- `hex.DecodeString`: two digits per byte; an invalid byte or an odd length is an error. -/
def hexDecode : Bytes → Option Bytes
  | [] => some []
  | [_] => none
  | p :: q :: s =>
    match hexVal p, hexVal q with
    | some a, some b => (hexDecode s).map (UInt8.ofNat (a * 16 + b) :: ·)
    | _, _ => none

/-- Both base32 and base64 skip carriage returns and line feeds. -/
def stripNewlines (s : Bytes) : Bytes := s.filter fun c => c ≠ chCR ∧ c ≠ chLF

/-- base32 `StdEncoding.decodeMap`: `A`-`Z` are 0-25 and `2`-`7` are 26-31. -/
def b32Val (c : UInt8) : Option Nat :=
  if 65 ≤ c ∧ c ≤ 90 then some (c.toNat - 65)
  else if 50 ≤ c ∧ c ≤ 55 then some (c.toNat - 50 + 26)
  else none

/-- What reading one quantum of eight symbols gives: the symbols read (`dbuf[:dlen]`),
what is left of the source, and whether the end was reached. -/
structure Quantum where
  dbuf : List Nat
  src : Bytes
  fin : Bool
deriving DecidableEq, Repr

/-- The inner loop of base32 `Encoding.decode`: `j` is `dbuf.length`, `padByte` is
`byte(enc.padChar)` (255 for `NoPadding`, whose rune is -1), `noPad` is
`enc.padChar == NoPadding`. -/
def b32Quantum (noPad : Bool) (padByte : UInt8) : Bytes → List Nat → Option Quantum
  | [], dbuf =>
    if dbuf.length = 8 then some ⟨dbuf, [], false⟩
    else if noPad then some ⟨dbuf, [], true⟩ else none
  | c :: src, dbuf =>
    if dbuf.length = 8 then some ⟨dbuf, c :: src, false⟩
    else if c = padByte ∧ dbuf.length ≥ 2 ∧ src.length < 8 then
      if src.length + dbuf.length < 7 then none
      else if (src.take (7 - dbuf.length)).any (· ≠ padByte) then none
      else if dbuf.length = 1 ∨ dbuf.length = 3 ∨ dbuf.length = 6 then none
      else some ⟨dbuf, src, true⟩
    else match b32Val c with
      | none => none
      | some v => b32Quantum noPad padByte src (dbuf ++ [v])

/-- The `switch dlen` of base32 `Encoding.decode`.  The code combines shifted symbols with
`|`; the shifted parts occupy disjoint bits, so the model adds them.  Other lengths
(1, 3, 6) give no byte. -/
def b32Pack (d : List Nat) : Bytes :=
  match d with
  | [a, b] => [UInt8.ofNat (a * 8 + b / 4)]
  | [a, b, c, e] => [UInt8.ofNat (a * 8 + b / 4), UInt8.ofNat (b % 4 * 64 + c * 2 + e / 16)]
  | [a, b, c, e, f] =>
    [UInt8.ofNat (a * 8 + b / 4), UInt8.ofNat (b % 4 * 64 + c * 2 + e / 16),
     UInt8.ofNat (e % 16 * 16 + f / 2)]
  | [a, b, c, e, f, g, h] =>
    [UInt8.ofNat (a * 8 + b / 4), UInt8.ofNat (b % 4 * 64 + c * 2 + e / 16),
     UInt8.ofNat (e % 16 * 16 + f / 2), UInt8.ofNat (f % 2 * 128 + g * 4 + h / 8)]
  | [a, b, c, e, f, g, h, i] =>
    [UInt8.ofNat (a * 8 + b / 4), UInt8.ofNat (b % 4 * 64 + c * 2 + e / 16),
     UInt8.ofNat (e % 16 * 16 + f / 2), UInt8.ofNat (f % 2 * 128 + g * 4 + h / 8),
     UInt8.ofNat (h % 8 * 32 + i)]
  | _ => []

/-- base32 `Encoding.decode`: quanta until the source or `end` is reached. `fuel` bounds the
number of quanta; each consumes at least one byte. -/
def b32Loop (noPad : Bool) (padByte : UInt8) : Nat → Bytes → Option Bytes
  | 0, _ => some []
  | fuel + 1, src =>
    if src = [] then some []
    else match b32Quantum noPad padByte src [] with
      | none => none
      | some q =>
        if q.fin then some (b32Pack q.dbuf)
        else (b32Loop noPad padByte fuel q.src).map (b32Pack q.dbuf ++ ·)

/-- base32 `StdEncoding.WithPadding(NoPadding).DecodeString` (`noPad`) and
`StdEncoding.DecodeString`. -/
def b32Decode (noPad : Bool) (s : Bytes) : Option Bytes :=
  let src := stripNewlines s
  b32Loop noPad (if noPad then 255 else 61) src.length src

/-- `base32DecodeAnyPadding` (go_algorand.go:377-388). -/
def base32DecodeAnyPadding (x : Bytes) : Option Bytes :=
  match b32Decode true x with
  | some v => some v
  | none => b32Decode false x

/-- base64 `StdEncoding.decodeMap`. -/
def b64Val (c : UInt8) : Option Nat :=
  if 65 ≤ c ∧ c ≤ 90 then some (c.toNat - 65)
  else if 97 ≤ c ∧ c ≤ 122 then some (c.toNat - 97 + 26)
  else if 48 ≤ c ∧ c ≤ 57 then some (c.toNat - 48 + 52)
  else if c = 43 then some 62
  else if c = 47 then some 63
  else none

/-- base64 `decodeQuantum` iterated, on a source without line breaks (the code skips them
wherever it reads a byte).  Shifted symbols are added, as in `b32Pack`.  Padding must end the
source; unused low bits are ignored (`StdEncoding` is not strict). -/
def b64Loop : Bytes → Option Bytes
  | [] => some []
  | [a, b, 61, 61] =>
    match b64Val a, b64Val b with
    | some a, some b => some [UInt8.ofNat (a * 4 + b / 16)]
    | _, _ => none
  | [a, b, c, 61] =>
    match b64Val a, b64Val b, b64Val c with
    | some a, some b, some c =>
      some [UInt8.ofNat (a * 4 + b / 16), UInt8.ofNat (b % 16 * 16 + c / 4)]
    | _, _, _ => none
  | a :: b :: c :: d :: s =>
    match b64Val a, b64Val b, b64Val c, b64Val d with
    | some a, some b, some c, some d =>
      (b64Loop s).map fun r =>
        UInt8.ofNat (a * 4 + b / 16) :: UInt8.ofNat (b % 16 * 16 + c / 4) ::
        UInt8.ofNat (c % 4 * 64 + d) :: r
    | _, _, _, _ => none
  | _ => none

/-- base64 `StdEncoding.DecodeString`. -/
def b64Decode (s : Bytes) : Option Bytes := b64Loop (stripNewlines s)

/-- base64 `StdEncoding.EncodeToString`, which expr.go uses to print byte constants.
The symbols are the index of each 6-bit group in the alphabet. -/
def b64Char (n : Nat) : UInt8 :=
  if n < 26 then UInt8.ofNat (65 + n)
  else if n < 52 then UInt8.ofNat (97 + (n - 26))
  else if n < 62 then UInt8.ofNat (48 + (n - 52))
  else if n = 62 then 43
  else 47

/-- See `b64Char`. -/
def b64Encode : Bytes → Bytes
  | [] => []
  | [a] => [b64Char (a.toNat / 4), b64Char (a.toNat % 4 * 16), 61, 61]
  | [a, b] =>
    [b64Char (a.toNat / 4), b64Char (a.toNat % 4 * 16 + b.toNat / 16),
     b64Char (b.toNat % 16 * 4), 61]
  | a :: b :: c :: s =>
    b64Char (a.toNat / 4) :: b64Char (a.toNat % 4 * 16 + b.toNat / 16) ::
    b64Char (b.toNat % 16 * 4 + c.toNat / 64) :: b64Char (c.toNat % 64) :: b64Encode s

/-- The digit of `hex.EncodeToString` / `%x`. -/
def hexChar (n : Nat) : UInt8 := if n < 10 then UInt8.ofNat (48 + n) else UInt8.ofNat (87 + n)

/-- `hex.EncodeToString`, which expr.go uses to print `bytecblock`. -/
def hexEncode : Bytes → Bytes
  | [] => []
  | b :: s => hexChar (b.toNat / 16) :: hexChar (b.toNat % 16) :: hexEncode s

end Teal
