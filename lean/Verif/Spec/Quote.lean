import Verif.Spec.Json

/-!
# Specification: string literals of Go
-/

namespace Teal.Spec

open Teal JsonSpec

/-- The escapes of one letter. -/
def goEscapes : List (UInt8 × UInt8) := [(97, 7), (98, 8), (102, 12), (110, 10), (114, 13), (116, 9), (118, 11), (92, 92), (34, 34)]

/-- `GoLiteral s v`: `s`, between quotes, is a string literal of Go for `v`, without control characters. -/
inductive GoLiteral : Bytes → Bytes → Prop
  | nil : GoLiteral [] []
  | plain (c : UInt8) (s v : Bytes) (h1 : 32 ≤ c) (h2 : c ≠ 34) (h3 : c ≠ 92) (h4 : c ≠ 127) (h : GoLiteral s v) : GoLiteral (c :: s) (c :: v)
  | letter (c x : UInt8) (s v : Bytes) (hc : (c, x) ∈ goEscapes) (h : GoLiteral s v) : GoLiteral (92 :: c :: s) (x :: v)
  | byte (a b : UInt8) (m n : Nat) (s v : Bytes) (ha : HexDigit a m) (hb : HexDigit b n) (h : GoLiteral s v) :
      GoLiteral (92 :: 120 :: a :: b :: s) ((m * 16 + n).toUInt8 :: v)
  | short (x s v : Bytes) (n : Nat) (hx : Hex4 x n) (hn : Scalar n) (h : GoLiteral s v) : GoLiteral (92 :: 117 :: (x ++ s)) (utf8 n ++ v)
  | long (x y s v : Bytes) (m n : Nat) (hx : Hex4 x m) (hy : Hex4 y n) (hn : Scalar (m * 65536 + n)) (h : GoLiteral s v) :
      GoLiteral (92 :: 85 :: (x ++ (y ++ s))) (utf8 (m * 65536 + n) ++ v)

end Teal.Spec
