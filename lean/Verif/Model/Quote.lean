import Verif.Model.Json
import Verif.Model.Corrupt

/-!
# Model: how a word is quoted

`strconv.Quote`, with which the errors of `strconv` quote the word that cannot be read.  It is not part of /repo;
it is modelled from Go's published source.  Which characters other than ASCII can be printed (`strconv.IsPrint`) is
a parameter.
-/

namespace Teal

/-- `strconv.IsPrint`, with what it says about characters that are not ASCII as a parameter. -/
def isPrint (print : Nat → Bool) (r : Nat) : Bool := if r < 128 then 32 ≤ r && r < 127 else print r

/-- `k` digits of `lowerhex`. -/
def hexDigits : Nat → Nat → Bytes
  | 0, _ => []
  | k + 1, n => hexDigits k (n / 16) ++ [Json.hexDigit (n % 16)]

/-- `strconv.appendEscapedRune`, of a character that `utf8.DecodeRuneInString` has given, which is valid. -/
def quoteRune (print : Nat → Bool) (r : Nat) : Bytes :=
  if r = 34 ∨ r = 92 then [92, r.toUInt8]
  else if isPrint print r then Json.encodeRune r
  else if r = 7 then b!"\\a"
  else if r = 8 then b!"\\b"
  else if r = 12 then b!"\\f"
  else if r = 10 then b!"\\n"
  else if r = 13 then b!"\\r"
  else if r = 9 then b!"\\t"
  else if r = 11 then b!"\\v"
  else if r < 32 ∨ r = 127 then b!"\\x" ++ hexDigits 2 r
  else if r < 0x10000 then b!"\\u" ++ hexDigits 4 r
  else b!"\\U" ++ hexDigits 8 r

/-- The loop of `strconv.appendQuotedWith`; each step takes at least one byte. -/
def quoteLoop (print : Nat → Bool) : Nat → Bytes → Bytes
  | 0, _ => []
  | _, [] => []
  | fuel + 1, c :: s =>
    if c < 128 then quoteRune print c.toNat ++ quoteLoop print fuel s
    else
      let p := decodeRune (c :: s)
      if p.2 = 1 ∧ p.1 = runeError then b!"\\x" ++ hexDigits 2 c.toNat ++ quoteLoop print fuel s
      else quoteRune print p.1 ++ quoteLoop print fuel ((c :: s).drop p.2)

/-- `strconv.Quote`. -/
def quote (print : Nat → Bool) (s : Bytes) : Bytes := 34 :: (quoteLoop print s.length s ++ [34])

end Teal
