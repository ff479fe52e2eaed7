/-!
# Byte strings

A Go `string` or `[]byte` is modelled as a list of bytes.
-/

namespace Teal

/-- A Go `string` / `[]byte`. -/
abbrev Bytes := List UInt8

open Lean in
/-- `b!"int"` is the list of the bytes of an (ASCII) literal, expanded at elaboration time
so that closed terms evaluate in the kernel. -/
macro:max "b!" s:str : term => do
  let bytes := s.getString.toUTF8.toList
  let elems : Array (TSyntax `term) := (bytes.map fun (x : UInt8) => Syntax.mkNumLit (toString x.toNat)).toArray
  `(([ $[$elems],* ] : List UInt8))

/-- `"` -/
abbrev chQuote : UInt8 := 34
/-- `\` -/
abbrev chBackslash : UInt8 := 92
/-- `/` -/
abbrev chSlash : UInt8 := 47
/-- carriage return -/
abbrev chCR : UInt8 := 13
/-- line feed -/
abbrev chLF : UInt8 := 10
/-- space -/
abbrev chSpace : UInt8 := 32
/-- tab -/
abbrev chTab : UInt8 := 9
/-- `:` -/
abbrev chColon : UInt8 := 58

end Teal
