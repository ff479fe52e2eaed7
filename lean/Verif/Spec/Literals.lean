import Verif.Spec.Numbers

/-!
# What string, hex, base32 and base64 constants denote

The escapes are those of the TEAL language; the encodings are those of RFC 4648, written as
base-2^k expansions of big-endian numbers rather than with shifts.
-/

namespace Teal.Spec

/-- The one-character escapes of a string literal. -/
def escapeOf (c v : UInt8) : Prop :=
  (c = 110 ∧ v = 10) ∨ (c = 114 ∧ v = 13) ∨ (c = 116 ∧ v = 9) ∨ (c = 92 ∧ v = 92) ∨
  (c = 34 ∧ v = 34)

/-- `Denotes body bs`: the text `body` between the quotes of a literal denotes `bs`. -/
inductive Denotes : Bytes → Bytes → Prop
  | nil : Denotes [] []
  /-- any byte other than a backslash stands for itself -/
  | plain (c : UInt8) (s bs : Bytes) (hc : c ≠ 92) (h : Denotes s bs) : Denotes (c :: s) (c :: bs)
  /-- `\n`, `\r`, `\t`, `\\`, `\"` -/
  | escape (c v : UInt8) (s bs : Bytes) (hc : escapeOf c v) (h : Denotes s bs) :
      Denotes (92 :: c :: s) (v :: bs)
  /-- `\xHH` -/
  | hex (p q : UInt8) (a b : Nat) (s bs : Bytes) (hp : digitValue p = some a)
      (hq : digitValue q = some b) (h : Denotes s bs) :
      Denotes (92 :: 120 :: p :: q :: s) (UInt8.ofNat (a * 16 + b) :: bs)

/-- The lower-case hex digit for a number below 16. -/
def hexDigit (n : Nat) : UInt8 := if n < 10 then UInt8.ofNat (48 + n) else UInt8.ofNat (87 + n)

/-- The two hex digits of a byte. -/
def hexByte (b : UInt8) : Bytes := [hexDigit (b.toNat / 16), hexDigit (b.toNat % 16)]

/-- A byte string in hex. -/
def hexText (bs : Bytes) : Bytes := bs.flatMap hexByte

/-- The safest escaping: every byte as `\xHH`. -/
def escapeAll (bs : Bytes) : Bytes := bs.flatMap fun b => 92 :: 120 :: hexByte b

/-- The usual escaping: named escapes where there is one, printable ASCII as it is, and
`\xHH` for the rest. -/
def escapeUsual (bs : Bytes) : Bytes := bs.flatMap fun b =>
  if b = 10 then [92, 110]
  else if b = 13 then [92, 114]
  else if b = 9 then [92, 116]
  else if b = 92 then [92, 92]
  else if b = 34 then [92, 34]
  else if 32 ≤ b ∧ b ≤ 126 then [b]
  else 92 :: 120 :: hexByte b

/-- The number a byte string denotes, most significant byte first. -/
def bigEndian (bs : Bytes) : Nat := bs.foldl (fun n b => n * 256 + b.toNat) 0

/-- The `k` base-`base` digits of `n`, most significant first, spelled with `alphabet`. -/
def symbols (base : Nat) (alphabet : Nat → UInt8) : Nat → Nat → Bytes
  | 0, _ => []
  | k + 1, n => symbols base alphabet k (n / base) ++ [alphabet (n % base)]

/-- The base32 alphabet of RFC 4648. -/
def alphabet32 (n : Nat) : UInt8 := (b!"ABCDEFGHIJKLMNOPQRSTUVWXYZ234567").getD n 0

/-- The base64 alphabet of RFC 4648. -/
def alphabet64 (n : Nat) : UInt8 :=
  (b!"ABCDEFGHIJKLMNOPQRSTUVWXYZabcdefghijklmnopqrstuvwxyz0123456789+/").getD n 0

/-- `=` as often as the padded form asks for. -/
def pads (padded : Bool) (n : Nat) : Bytes := if padded then List.replicate n 61 else []

/-- Base32 (RFC 4648, section 6), with or without padding: every five bytes become eight
symbols; a shorter last group is filled with zero bits to a multiple of five bits. -/
def base32 (padded : Bool) : Bytes → Bytes
  | [] => []
  | [a] => symbols 32 alphabet32 2 (bigEndian [a] * 2 ^ 2) ++ pads padded 6
  | [a, b] => symbols 32 alphabet32 4 (bigEndian [a, b] * 2 ^ 4) ++ pads padded 4
  | [a, b, c] => symbols 32 alphabet32 5 (bigEndian [a, b, c] * 2) ++ pads padded 3
  | [a, b, c, d] => symbols 32 alphabet32 7 (bigEndian [a, b, c, d] * 2 ^ 3) ++ pads padded 1
  | a :: b :: c :: d :: e :: s =>
    symbols 32 alphabet32 8 (bigEndian [a, b, c, d, e]) ++ base32 padded s

/-- Base64 (RFC 4648, section 4): every three bytes become four symbols. -/
def base64 : Bytes → Bytes
  | [] => []
  | [a] => symbols 64 alphabet64 2 (bigEndian [a] * 2 ^ 4) ++ [61, 61]
  | [a, b] => symbols 64 alphabet64 3 (bigEndian [a, b] * 2 ^ 2) ++ [61]
  | a :: b :: c :: s => symbols 64 alphabet64 4 (bigEndian [a, b, c]) ++ base64 s

/-- `HexOf s bs`: `s` spells `bs` with two hex digits, of either case, for each byte. -/
inductive HexOf : Bytes → Bytes → Prop
  | nil : HexOf [] []
  | byte (p q : UInt8) (a b : Nat) (s bs : Bytes) (hp : digitValue p = some a) (hq : digitValue q = some b)
      (h : HexOf s bs) : HexOf (p :: q :: s) (UInt8.ofNat (a * 16 + b) :: bs)

/-- `Base64Of s bs`: `s` is a padded base64 text for `bs`: groups of four symbols for three bytes,
and at the end possibly one padded group, whose unused low bits may be anything. -/
inductive Base64Of : Bytes → Bytes → Prop
  | nil : Base64Of [] []
  | group (a b c d : Nat) (x y z : UInt8) (s bs : Bytes) (ha : a < 64) (hb : b < 64) (hc : c < 64) (hd : d < 64)
      (hv : bigEndian [x, y, z] = numeral 64 [a, b, c, d]) (h : Base64Of s bs) :
      Base64Of ([a, b, c, d].map alphabet64 ++ s) (x :: y :: z :: bs)
  | two (a b c : Nat) (x y : UInt8) (ha : a < 64) (hb : b < 64) (hc : c < 64)
      (hv : bigEndian [x, y] = numeral 64 [a, b, c] / 2 ^ 2) :
      Base64Of ([a, b, c].map alphabet64 ++ [61]) [x, y]
  | one (a b : Nat) (x : UInt8) (ha : a < 64) (hb : b < 64) (hv : bigEndian [x] = numeral 64 [a, b] / 2 ^ 4) :
      Base64Of ([a, b].map alphabet64 ++ [61, 61]) [x]

end Teal.Spec
