import Verif.Model.Basic

/-!
# `utf8.DecodeRune`

Go's standard library function, modelled from its source (`unicode/utf8/utf8.go`,
`DecodeRune`, tables `first` and `acceptRanges`).
-/

namespace Teal

/-- `utf8.RuneError`. -/
def runeError : Nat := 0xFFFD

/-- Is `c` in the inclusive range? -/
def inRange (lo hi : Nat) (c : UInt8) : Bool := lo ≤ c.toNat && c.toNat ≤ hi

/-- For a leading byte: number of bytes of the sequence and the accepted range of its
second byte; `none` for bytes that cannot start a multi-byte sequence.
Models the tables `first`/`acceptRanges` of `unicode/utf8`. -/
def leadInfo (c : UInt8) : Option (Nat × Nat × Nat) :=
  if inRange 0xC2 0xDF c then some (2, 0x80, 0xBF)
  else if inRange 0xE0 0xE0 c then some (3, 0xA0, 0xBF)
  else if inRange 0xE1 0xEC c then some (3, 0x80, 0xBF)
  else if inRange 0xED 0xED c then some (3, 0x80, 0x9F)
  else if inRange 0xEE 0xEF c then some (3, 0x80, 0xBF)
  else if inRange 0xF0 0xF0 c then some (4, 0x90, 0xBF)
  else if inRange 0xF1 0xF3 c then some (4, 0x80, 0xBF)
  else if inRange 0xF4 0xF4 c then some (4, 0x80, 0x8F)
  else none

/-- `utf8.DecodeRune`: the first rune and its width; `(RuneError, 0)` on empty input and
`(RuneError, 1)` on an invalid encoding. -/
def decodeRune : Bytes → Nat × Nat
  | [] => (runeError, 0)
  | c0 :: rest =>
    if c0.toNat < 0x80 then (c0.toNat, 1)
    else
      match leadInfo c0 with
      | none => (runeError, 1)
      | some (n, lo, hi) =>
        match rest with
        | [] => (runeError, 1)
        | c1 :: rest1 =>
          if !inRange lo hi c1 then (runeError, 1)
          else if n = 2 then ((c0.toNat % 32) * 64 + c1.toNat % 64, 2)
          else
            match rest1 with
            | [] => (runeError, 1)
            | c2 :: rest2 =>
              if !inRange 0x80 0xBF c2 then (runeError, 1)
              else if n = 3 then
                ((c0.toNat % 16) * 4096 + (c1.toNat % 64) * 64 + c2.toNat % 64, 3)
              else
                match rest2 with
                | [] => (runeError, 1)
                | c3 :: _ =>
                  if !inRange 0x80 0xBF c3 then (runeError, 1)
                  else
                    ((c0.toNat % 8) * 262144 + (c1.toNat % 64) * 4096
                      + (c2.toNat % 64) * 64 + c3.toNat % 64, 4)

end Teal
