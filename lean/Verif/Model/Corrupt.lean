import Verif.Model.Why

/-!
# Model: where a base32 or base64 constant goes wrong

The errors of `encoding/base32` and `encoding/base64` (`CorruptInputError`), which the parser shows as they are
(process.go:1262-1345).  The packages are not part of /repo; they are modelled from Go's published source, like the
decoders in `Model/Literals`.
-/

namespace Teal

/-- The index of the first of the bytes that is not the padding character (base32 `decode`: the loop over `k`). -/
def firstOther (pad : UInt8) : Bytes → Option Nat
  | [] => none
  | c :: s => if c ≠ pad then some 0 else (firstOther pad s).map (· + 1)

/-- The offset of the error of base32 `Encoding.decode` with `NoPadding`, whose byte is 255: `olen` is the length of
the text without line breaks, the list is what is left of it, and `j` counts the symbols of the quantum. -/
def b32Corrupt (olen : Nat) : Bytes → Nat → Option Nat
  | [], _ => none
  | c :: src, j =>
    if c = 255 ∧ j ≥ 2 ∧ src.length < 8 then
      if src.length + j < 7 then some olen
      else match firstOther 255 (src.take (7 - j)) with
        | some k => some (olen - src.length + k - 1)
        | none => if j = 1 ∨ j = 3 ∨ j = 6 then some (olen - src.length - 1) else none
    else match b32Val c with
      | none => some (olen - src.length - 1)
      | some _ => b32Corrupt olen src ((j + 1) % 8)

/-- `base32DecodeAnyPadding` (go_algorand.go:377-388): if neither decoder can read the text, the error of the first
one, which knows no padding, is returned. -/
def b32Offset (x : Bytes) : Option Nat :=
  let src := stripNewlines x
  b32Corrupt src.length src 0

/-- base64 `decodeQuantum`: line breaks are skipped (`for si < len(src) && (src[si] == '\n' || src[si] == '\r')`). -/
def skipBreaks : Bytes → Bytes
  | [] => []
  | c :: s => if c = chLF ∨ c = chCR then skipBreaks s else c :: s

/-- base64 `decodeQuantum`, behind the padding: `trailing garbage`. -/
def b64Trailing (olen : Nat) (s : Bytes) : Option Nat :=
  match skipBreaks s with
  | [] => none
  | c :: s => some (olen - (c :: s).length)

/-- The offset of the error of base64 `Encoding.Decode`, that is of `decodeQuantum`: `olen` is the length of the text,
the list is what is left of it, and `j` counts the symbols of the quantum. -/
def b64Corrupt (olen : Nat) : Bytes → Nat → Option Nat
  | [], j => if j = 0 then none else some (olen - j)
  | c :: src, j =>
    if b64Val c ≠ none then b64Corrupt olen src ((j + 1) % 4)
    else if c = chLF ∨ c = chCR then b64Corrupt olen src j
    else if c ≠ 61 then some (olen - src.length - 1)
    else if j = 0 ∨ j = 1 then some (olen - src.length - 1)
    else if j = 2 then
      match skipBreaks src with
      | [] => some olen
      | d :: src => if d ≠ 61 then some (olen - (d :: src).length - 1) else b64Trailing olen src
    else b64Trailing olen src

/-- The offset of the error of base64 `StdEncoding.DecodeString`. -/
def b64Offset (x : Bytes) : Option Nat := b64Corrupt x.length x 0

/-- `CorruptInputError.Error` of `encoding/base32`. -/
def b32Text (x : Bytes) : Bytes :=
  match b32Offset x with
  | none => []
  | some n => b!"illegal base32 data at input byte " ++ formatUint n

/-- `CorruptInputError.Error` of `encoding/base64`. -/
def b64Text (x : Bytes) : Bytes :=
  match b64Offset x with
  | none => []
  | some n => b!"illegal base64 data at input byte " ++ formatUint n

/-- The texts of all errors; that of an address is a parameter. -/
def goErrors (quote addr : Bytes → Bytes) : ErrorTexts := goTexts quote b32Text b64Text addr

end Teal
