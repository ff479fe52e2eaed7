import Verif.Model.Basic

/-!
# Go's `strconv` as the code uses it

`parser.go` reads every number with `strconv.ParseUint` / `strconv.ParseInt`, and
`go_algorand.go` reads the two digits of a `\xHH` escape with `strconv.ParseUint(_, 16, 8)`.
These are standard library functions, not part of /repo; they are modelled statement by
statement because the properties speak of which spellings are accepted.
Error values are modelled by `none` (the text of an error is not modelled).
-/

namespace Teal

/-- strconv `lower(c) = c | ('x' - 'X')`. -/
def lower (c : UInt8) : UInt8 := c ||| 32

/-- The digit switch of the loop of `strconv.ParseUint`:
`'0'..'9'` and, in either case, `'a'..'z'`; anything else is a syntax error. -/
def digitOf (c : UInt8) : Option Nat :=
  if 48 ≤ c ∧ c ≤ 57 then some (c.toNat - 48)
  else if 97 ≤ lower c ∧ lower c ≤ 122 then some ((lower c).toNat - 97 + 10)
  else none

/-- `1 << 64`, the modulus of Go's `uint64`. -/
abbrev two64 : Nat := 2 ^ 64

/-- The loop of `strconv.ParseUint` over the bytes after the base prefix.
`base0` says whether the caller passed base 0 (then `_` is allowed here and checked later);
`n` is the accumulator and `us` the `underscores` flag.  `n *= base` and `n + d` wrap modulo
2^64 as in Go; the guards `n >= cutoff`, `n1 < n`, `n1 > maxVal` are kept as they are. -/
def parseDigits (base0 : Bool) (base maxVal : Nat) : Bytes → Nat → Bool → Option (Nat × Bool)
  | [], n, us => some (n, us)
  | c :: s, n, us =>
    if c = 95 ∧ base0 then parseDigits base0 base maxVal s n true
    else match digitOf c with
      | none => none
      | some d =>
        if d ≥ base then none
        else if n ≥ (two64 - 1) / base + 1 then none
        else
          let m := (n * base) % two64
          let n1 := (m + d) % two64
          if n1 < m ∨ n1 > maxVal then none
          else parseDigits base0 base maxVal s n1 us

/-- The states of strconv's `underscoreOK`: nothing yet (`'^'`), a digit or base prefix
(`'0'`), an underscore (`'_'`), something else (`'!'`). -/
inductive Saw where
  | start | digit | underscore | other
  deriving DecidableEq, Repr

/-- The loop of strconv's `underscoreOK`. -/
def underscoreLoop (hex : Bool) : Bytes → Saw → Bool
  | [], saw => saw ≠ .underscore
  | c :: s, saw =>
    if (48 ≤ c ∧ c ≤ 57) ∨ (hex ∧ 97 ≤ lower c ∧ lower c ≤ 102) then
      underscoreLoop hex s .digit
    else if c = 95 then
      if saw ≠ .digit then false else underscoreLoop hex s .underscore
    else if saw = .underscore then false
    else underscoreLoop hex s .other

/-- strconv `underscoreOK` (only called from `ParseUint` here, so there is no sign). -/
def underscoreOK : Bytes → Bool
  | 48 :: c :: s =>
    if lower c = 98 ∨ lower c = 111 ∨ lower c = 120 then
      underscoreLoop (lower c = 120) s .digit
    else underscoreLoop false (48 :: c :: s) .start
  | s => underscoreLoop false s .start

/-- The base and the remaining text `strconv.ParseUint` chooses when called with base 0. -/
def basePrefix : Bytes → Nat × Bytes
  | 48 :: c :: d :: s =>
    if lower c = 98 then (2, d :: s)
    else if lower c = 111 then (8, d :: s)
    else if lower c = 120 then (16, d :: s)
    else (8, c :: d :: s)
  | 48 :: s => (8, s)
  | s => (10, s)

/-- `strconv.ParseUint(s, 0, bits)`. -/
def parseUint0 (bits : Nat) (s : Bytes) : Option Nat :=
  if s = [] then none
  else
    let p := basePrefix s
    match parseDigits true p.1 (2 ^ bits - 1) p.2 0 false with
    | none => none
    | some (n, us) => if us && !underscoreOK s then none else some n

/-- `strconv.ParseUint(s, base, bits)` for a base from 2 to 36. -/
def parseUintBase (base bits : Nat) (s : Bytes) : Option Nat :=
  if s = [] then none
  else match parseDigits false base (2 ^ bits - 1) s 0 false with
    | none => none
    | some (n, _) => some n

/-- `strconv.ParseInt(s, base, bits)` for a base from 2 to 36. -/
def parseIntBase (base bits : Nat) (s : Bytes) : Option Int :=
  match s with
  | [] => none
  | c :: t =>
    let neg := c = 45
    let digits := if c = 43 ∨ c = 45 then t else s
    match parseUintBase base bits digits with
    | none => none
    | some un =>
      let cutoff := 2 ^ (bits - 1)
      if ¬ neg ∧ un ≥ cutoff then none
      else if neg ∧ un > cutoff then none
      else some (if neg then - (un : Int) else un)

/-- The decimal digits of `n`, most significant first, before `acc`. -/
def formatLoop (n : Nat) (acc : Bytes) : Bytes :=
  if n < 10 then UInt8.ofNat (48 + n) :: acc
  else formatLoop (n / 10) (UInt8.ofNat (48 + n % 10) :: acc)
decreasing_by omega

/-- `strconv.FormatUint(n, 10)`, which is also what `fmt`'s `%d` prints for an unsigned
integer (expr.go prints every immediate this way). -/
def formatUint (n : Nat) : Bytes := formatLoop n []

/-- `fmt`'s `%d` for a signed integer. -/
def formatInt (i : Int) : Bytes :=
  match i with
  | .ofNat n => formatUint n
  | .negSucc n => 45 :: formatUint (n + 1)

/-- parser.go:77-84 `readInt8`. -/
def readInt8 (s : Bytes) : Option Int := parseIntBase 10 8 s

/-- parser.go:86-93 `readUint8`. -/
def readUint8 (s : Bytes) : Option Nat := parseUintBase 10 8 s

/-- parser.go:320-327 `readInt` (of the text of the current argument). -/
def readInt (s : Bytes) : Option Nat := parseUint0 64 s

end Teal
