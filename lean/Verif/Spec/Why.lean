import Verif.Spec.Instr
import Verif.Spec.Literals
import Verif.Model.Operand

/-!
# Specification: why a constant cannot be read

`q` is how a word is quoted in a message.
-/

namespace Teal.Spec

open Teal

/-- What is said of a word that is not a number: that the value is out of range, or else that the syntax is invalid. -/
def NumberSays (fn : Bytes) (q : Bytes → Bytes) (x : Bytes) (big : Prop) (m : Bytes) : Prop :=
  (big ∧ m = b!"strconv." ++ fn ++ b!": parsing " ++ q x ++ b!": value out of range") ∨
  (¬ big ∧ m = b!"strconv." ++ fn ++ b!": parsing " ++ q x ++ b!": invalid syntax")

/-- The word begins with the digits of a number from `limit` on. -/
def BeginsBig (base limit : Nat) (x : Bytes) : Prop :=
  ∃ p r ds, x = p ++ r ∧ PlainDigits base p ds ∧ limit ≤ numeral base ds

/-- The digits of a number that may have a base prefix. -/
inductive NumberBody : Bytes → Nat → Bytes → Prop
  | decimal (c : UInt8) (s : Bytes) (hc : c ≠ 48) : NumberBody (c :: s) 10 (c :: s)
  | octal (s : Bytes) (h : ∀ p c t base, s = p :: c :: t → ¬ baseLetter p base) : NumberBody (48 :: s) 8 s
  | prefixed (base : Nat) (p c : UInt8) (s : Bytes) (hp : baseLetter p base) : NumberBody (48 :: p :: c :: s) base (c :: s)

/-- The word begins with a number from 2^64 on, whatever the underscores in it. -/
def BeginsHuge (x : Bytes) : Prop :=
  ∃ base body, NumberBody x base body ∧ BeginsBig base (2 ^ 64) (body.filter (· ≠ 95))

/-- The word has a sign or none and begins with a number from 256 on, or is a number that is not from -128 to 127. -/
def BeginsFar (x : Bytes) : Prop :=
  (∃ s y, x = s ++ y ∧ (s = [] ∨ s = b!"+" ∨ s = b!"-") ∧ BeginsBig 10 256 y) ∨ ∃ i, SignedDecimal x i ∧ ¬ (-128 ≤ i ∧ i ≤ 127)

/-- What is said about the first bytes of a literal that cannot be read.  A character that is not ASCII is not
named as it is. -/
inductive EscapeSays (q : Bytes → Bytes) : Bytes → Bytes → Prop
  | backslash : EscapeSays q [92] b!"non-terminated escape seq"
  | letter (c : UInt8) (s : Bytes) (hc : ∀ v, ¬ escapeOf c v) (hx : c ≠ 120) (ha : c < 128) :
      EscapeSays q (92 :: c :: s) (b!"invalid escape seq \\" ++ [c])
  | other (c : UInt8) (s d : Bytes) (ha : 128 ≤ c) : EscapeSays q (92 :: c :: s) (b!"invalid escape seq \\" ++ d)
  | x : EscapeSays q [92, 120] b!"non-terminated escape seq"
  | escape (s : Bytes) : EscapeSays q (92 :: 120 :: 92 :: s) b!"escape seq inside hex number"
  | one (c : UInt8) (hc : c ≠ 92) : EscapeSays q [92, 120, c] b!"non-terminated hex seq"
  | digits (c d : UInt8) (s : Bytes) (hc : c ≠ 92) (h : digitValue c = none ∨ digitValue d = none) :
      EscapeSays q (92 :: 120 :: c :: d :: s) (b!"strconv.ParseUint: parsing " ++ q [c, d] ++ b!": invalid syntax")

/-- What is said about the text between the quotes of a literal: the bytes in front can be read. -/
def LiteralSays (q : Bytes → Bytes) (body m : Bytes) : Prop :=
  ∃ good bs bad, body = good ++ bad ∧ Denotes good bs ∧ EscapeSays q bad m

/-- The number of a byte in two digits, and the character unless it cannot be printed. -/
def ByteShown (c : UInt8) (m : Bytes) : Prop :=
  ∃ a b, [a, b].map digitValue = [some (c.toNat / 16), some (c.toNat % 16)] ∧ (∀ x ∈ [a, b], ¬ (97 ≤ x ∧ x ≤ 122)) ∧
    ((32 ≤ c ∧ c < 127 → m = b!"U+00" ++ [a, b] ++ b!" '" ++ [c] ++ b!"'") ∧ (c < 32 ∨ c = 127 → m = b!"U+00" ++ [a, b]) ∧
     (128 ≤ c → b!"U+00" ++ [a, b] <+: m))

/-- What is said about a text that is not in hex: the first byte that is not a digit, or that their number is odd. -/
inductive HexSays : Bytes → Bytes → Prop
  | byte (good : Bytes) (c : UInt8) (s m : Bytes) (hg : ∀ x ∈ good, (digitValue x).isSome) (hc : digitValue c = none) (hm : ByteShown c m) :
      HexSays (good ++ c :: s) (b!"encoding/hex: invalid byte: " ++ m)
  | odd (s : Bytes) (hs : ∀ x ∈ s, (digitValue x).isSome) (hl : s.length % 2 = 1) : HexSays s b!"encoding/hex: odd length hex string"

/-- The texts of errors that say why a constant cannot be read. -/
structure Explains (q : Bytes → Bytes) (e : ErrorTexts) : Prop where
  byte : ∀ x, (∀ n, ¬ IsByte x n) → NumberSays b!"ParseUint" q x (BeginsBig 10 256 x) (e.uint8 x)
  uint : ∀ x, (∀ n, ¬ IsUint x n) → NumberSays b!"ParseUint" q x (BeginsHuge x) (e.uint64 x)
  small : ∀ x, (∀ i, ¬ IsSmall x i) → NumberSays b!"ParseInt" q x (BeginsFar x) (e.int8 x)
  hex : ∀ x, (∀ v, ¬ HexOf x v) → HexSays x (e.hex x)
  string : ∀ s, (∀ v, ¬ Denotes s v) → LiteralSays q s (e.string (34 :: (s ++ [34])))

end Teal.Spec
