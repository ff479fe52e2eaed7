import Verif.Model.Operand

/-!
# Model: why a constant cannot be read

The texts of the errors of `strconv`, `encoding/hex` and `parseStringLiteral`.  The first two are not part of
/repo; they are modelled from Go's published source, as in `Model/Strconv`.  `strconv.Quote` is a parameter
(it needs the tables of package unicode), and so are the texts of base32, base64 and addresses.
-/

namespace Teal

/-- `strconv.ErrSyntax` and `strconv.ErrRange`. -/
inductive NumWhy where
  | syntax | range
deriving DecidableEq, Repr

/-- The error of the loop of `strconv.ParseUint` (`parseDigits`). -/
def digitsWhy (base0 : Bool) (base maxVal : Nat) : Bytes → Nat → Option NumWhy
  | [], _ => none
  | c :: s, n =>
    if c = 95 ∧ base0 then digitsWhy base0 base maxVal s n
    else match digitOf c with
      | none => some .syntax
      | some d =>
        if d ≥ base then some .syntax
        else if n ≥ (two64 - 1) / base + 1 then some .range
        else
          let m := (n * base) % two64
          let n1 := (m + d) % two64
          if n1 < m ∨ n1 > maxVal then some .range
          else digitsWhy base0 base maxVal s n1

/-- The error of `strconv.ParseUint(s, 0, bits)`. -/
def uint0Why (bits : Nat) (s : Bytes) : Option NumWhy :=
  if s = [] then some .syntax
  else
    let p := basePrefix s
    match digitsWhy true p.1 (2 ^ bits - 1) p.2 0 with
    | some w => some w
    | none => if p.2.contains 95 && !underscoreOK s then some .syntax else none

/-- The error of `strconv.ParseUint(s, base, bits)`. -/
def uintBaseWhy (base bits : Nat) (s : Bytes) : Option NumWhy :=
  if s = [] then some .syntax else digitsWhy false base (2 ^ bits - 1) s 0

/-- The error of `strconv.ParseInt(s, base, bits)`: if `ParseUint` says that the number is out of range, the
number it returns is the largest one, which is out of range here, too. -/
def intBaseWhy (base bits : Nat) (s : Bytes) : Option NumWhy :=
  match s with
  | [] => some .syntax
  | c :: t =>
    let neg := c = 45
    let digits := if c = 43 ∨ c = 45 then t else s
    match uintBaseWhy base bits digits with
    | some w => some w
    | none =>
      match parseUintBase base bits digits with
      | none => none
      | some un =>
        let cutoff := 2 ^ (bits - 1)
        if ¬ neg ∧ un ≥ cutoff then some .range
        else if neg ∧ un > cutoff then some .range
        else none

/-- `Error` of `strconv.NumError`. -/
def numText (fn : Bytes) (quote : Bytes → Bytes) (s : Bytes) (w : Option NumWhy) : Bytes :=
  match w with
  | none => []
  | some w =>
    b!"strconv." ++ fn ++ b!": parsing " ++ quote s ++ b!": " ++
      (match w with
       | .syntax => b!"invalid syntax"
       | .range => b!"value out of range")

/-- `%c` of a byte: the character with this number, in UTF-8. -/
def byteRune (c : UInt8) : Bytes := if c < 128 then [c] else [(192 : UInt8) ||| (c >>> 6), (128 : UInt8) ||| (c &&& 63)]

/-- The error of the loop of `parseStringLiteral` (go_algorand.go:321-372; see `stringLoop`). -/
def stringWhy (quote : Bytes → Bytes) : Bytes → Bool → Bool → Option Bytes
  | [], esc, hex => if esc || hex then some b!"non-terminated escape seq" else none
  | char :: rest, esc, hex =>
    if char = chBackslash ∧ esc = false then
      if hex then some b!"escape seq inside hex number" else stringWhy quote rest true hex
    else
      let escaped : Option (Option UInt8) :=
        if esc then
          if char = 120 then some none else (simpleEscape char).map some
        else some (some char)
      match escaped with
      | none => some (b!"invalid escape seq \\" ++ byteRune char)
      | some none => stringWhy quote rest false true
      | some (some char) =>
        if hex then
          match rest with
          | [] => some b!"non-terminated hex seq"
          | second :: rest =>
            match uintBaseWhy 16 8 [char, second] with
            | some w => some (numText b!"ParseUint" quote [char, second] (some w))
            | none => stringWhy quote rest false false
        else stringWhy quote rest false false

/-- The text of the error of `parseStringLiteral` (go_algorand.go:309-375). -/
def stringText (quote : Bytes → Bytes) (input : Bytes) : Bytes :=
  if input.head? ≠ some chQuote ∨ input.getLast? ≠ some chQuote then b!"no quotes"
  else (stringWhy quote ((input.take (input.length - 1)).drop 1) false false).getD []

/-- `unicode.IsPrint` of the first 256 characters. -/
def latinPrint (c : UInt8) : Bool := (32 ≤ c && c < 127) || (161 ≤ c && c ≠ 173)

/-- A digit of `%X`. -/
def upperHex (n : Nat) : UInt8 := if n < 10 then UInt8.ofNat (48 + n) else UInt8.ofNat (55 + n)

/-- `hex.InvalidByteError`: `%#U` of the byte. -/
def invalidByte (c : UInt8) : Bytes :=
  b!"encoding/hex: invalid byte: U+00" ++ [upperHex (c.toNat / 16), upperHex (c.toNat % 16)] ++
    (if latinPrint c then b!" '" ++ byteRune c ++ b!"'" else [])

/-- The error of `hex.DecodeString`: two digits at a time; a last one that has no partner is looked at, too. -/
def hexWhy : Bytes → Option Bytes
  | [] => none
  | [c] => if hexVal c = none then some (invalidByte c) else some b!"encoding/hex: odd length hex string"
  | p :: q :: s =>
    if hexVal p = none then some (invalidByte p)
    else if hexVal q = none then some (invalidByte q)
    else hexWhy s

/-- The texts of the errors: `readUint8` (parser.go:86-93), `readInt` and `readConstInt` (320-346), `readInt8`
(77-84), `hex.DecodeString` and `parseStringLiteral`. -/
def goTexts (quote base32 base64 addr : Bytes → Bytes) : ErrorTexts where
  uint8 s := numText b!"ParseUint" quote s (uintBaseWhy 10 8 s)
  uint64 s := numText b!"ParseUint" quote s (uint0Why 64 s)
  int8 s := numText b!"ParseInt" quote s (intBaseWhy 10 8 s)
  base32 := base32
  base64 := base64
  hex s := (hexWhy s).getD []
  string := stringText quote
  addr := addr

end Teal
