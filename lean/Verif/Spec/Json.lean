import Verif.Model.Json

/-!
# Specification: JSON texts

The grammar of RFC 8259, with what a text stands for.
-/

namespace Teal.JsonSpec

/-- A Unicode scalar value: a code point that is not a surrogate. -/
def Scalar (n : Nat) : Prop := n < 0xD800 ∨ 0xE000 ≤ n ∧ n < 0x110000

/-- UTF-8 (RFC 3629). -/
def utf8 (n : Nat) : Bytes :=
  if n < 0x80 then [n.toUInt8]
  else if n < 0x800 then [(0xC0 + n / 64).toUInt8, (0x80 + n % 64).toUInt8]
  else if n < 0x10000 then [(0xE0 + n / 4096).toUInt8, (0x80 + n / 64 % 64).toUInt8, (0x80 + n % 64).toUInt8]
  else [(0xF0 + n / 262144).toUInt8, (0x80 + n / 4096 % 64).toUInt8, (0x80 + n / 64 % 64).toUInt8, (0x80 + n % 64).toUInt8]

/-- Byte strings that are UTF-8. -/
inductive Utf8 : Bytes → Prop
  | nil : Utf8 []
  | cons {n : Nat} {s : Bytes} : Scalar n → Utf8 s → Utf8 (utf8 n ++ s)

/-- White space of JSON: spaces, tabs and line breaks. -/
def Ws (s : Bytes) : Prop := ∀ c ∈ s, c = 32 ∨ c = 9 ∨ c = 10 ∨ c = 13

instance (s : Bytes) : Decidable (Ws s) := inferInstanceAs (Decidable (∀ c ∈ s, c = 32 ∨ c = 9 ∨ c = 10 ∨ c = 13))

/-- `HexDigit c n`: the byte is a hexadecimal digit with the value `n`. -/
inductive HexDigit : UInt8 → Nat → Prop
  | digit {c : UInt8} : 48 ≤ c.toNat → c.toNat ≤ 57 → HexDigit c (c.toNat - 48)
  | lower {c : UInt8} : 97 ≤ c.toNat → c.toNat ≤ 102 → HexDigit c (10 + (c.toNat - 97))
  | upper {c : UInt8} : 65 ≤ c.toNat → c.toNat ≤ 70 → HexDigit c (10 + (c.toNat - 65))

/-- Four hexadecimal digits and the number they stand for. -/
inductive Hex4 : Bytes → Nat → Prop
  | mk {a b c d : UInt8} {w x y z : Nat} : HexDigit a w → HexDigit b x → HexDigit c y → HexDigit d z →
      Hex4 [a, b, c, d] (w * 4096 + x * 256 + y * 16 + z)

/-- The one-letter escapes of JSON and the bytes they stand for. -/
inductive ShortEscape : UInt8 → UInt8 → Prop
  | quote : ShortEscape 34 34
  | backslash : ShortEscape 92 92
  | slash : ShortEscape 47 47
  | b : ShortEscape 98 8
  | f : ShortEscape 102 12
  | n : ShortEscape 110 10
  | r : ShortEscape 114 13
  | t : ShortEscape 116 9

/-- `Chars loose s v`: between quotes, `s` spells the string `v`.  In a loose spelling bytes that are
not UTF-8 and escapes that are halves of pairs are allowed; the replacement character U+FFFD is what
they stand for. -/
inductive Chars (loose : Prop) : Bytes → Bytes → Prop
  | nil : Chars loose [] []
  | plain {n : Nat} {s v : Bytes} : Scalar n → 32 ≤ n → n ≠ 34 → n ≠ 92 → Chars loose s v →
      Chars loose (utf8 n ++ s) (utf8 n ++ v)
  | short {c b : UInt8} {s v : Bytes} : ShortEscape c b → Chars loose s v → Chars loose (92 :: c :: s) (b :: v)
  | code {h : Bytes} {n : Nat} {s v : Bytes} : Hex4 h n → Scalar n → Chars loose s v →
      Chars loose (92 :: 117 :: h ++ s) (utf8 n ++ v)
  | pair {h g : Bytes} {m n : Nat} {s v : Bytes} : Hex4 h m → Hex4 g n → 0xD800 ≤ m → m < 0xDC00 → 0xDC00 ≤ n → n < 0xE000 →
      Chars loose s v →
      Chars loose (92 :: 117 :: h ++ 92 :: 117 :: g ++ s) (utf8 (0x10000 + (m - 0xD800) * 0x400 + (n - 0xDC00)) ++ v)
  | half {h : Bytes} {n : Nat} {s v : Bytes} : loose → Hex4 h n → 0xD800 ≤ n → n < 0xE000 → Chars loose s v →
      Chars loose (92 :: 117 :: h ++ s) (utf8 0xFFFD ++ v)
  | stray {c : UInt8} {s v : Bytes} : loose → 128 ≤ c.toNat → Chars loose s v → Chars loose (c :: s) (utf8 0xFFFD ++ v)

/-- Decimal digits. -/
def JsonDigits (s : Bytes) : Prop := s ≠ [] ∧ ∀ c ∈ s, 48 ≤ c.toNat ∧ c.toNat ≤ 57

/-- Numbers: an optional minus, digits without a leading zero, an optional fraction and an optional
exponent. -/
def JsonNumber (s : Bytes) : Prop :=
  ∃ sign whole frac exp : Bytes, s = sign ++ whole ++ frac ++ exp ∧
    (sign = [] ∨ sign = b!"-") ∧
    (whole = b!"0" ∨ JsonDigits whole ∧ whole.head? ≠ some 48) ∧
    (frac = [] ∨ ∃ ds, JsonDigits ds ∧ frac = 46 :: ds) ∧
    (exp = [] ∨ ∃ e g ds, JsonDigits ds ∧ (e = b!"e" ∨ e = b!"E") ∧ (g = [] ∨ g = b!"+" ∨ g = b!"-") ∧ exp = e ++ g ++ ds)

/-- What a part of a text stands for. -/
inductive Phrase where
  | value (j : Json)
  /-- the elements of an array -/
  | elements (vs : List Json)
  /-- the members of an object -/
  | members (ms : List (Bytes × Json))

/-- `Spelled loose n s p`: the text `s` spells `p`, with arrays and objects nested at most `n` deep. -/
inductive Spelled (loose : Prop) : Nat → Bytes → Phrase → Prop
  | null {n : Nat} : Spelled loose n b!"null" (.value .null)
  | true {n : Nat} : Spelled loose n b!"true" (.value (.bool .true))
  | false {n : Nat} : Spelled loose n b!"false" (.value (.bool .false))
  | num {n : Nat} {s : Bytes} : JsonNumber s → Spelled loose n s (.value (.num s))
  | str {n : Nat} {s v : Bytes} : Chars loose s v → Spelled loose n (b!"\"" ++ s ++ b!"\"") (.value (.str v))
  | emptyArr {n : Nat} {w : Bytes} : Ws w → Spelled loose (n + 1) (b!"[" ++ w ++ b!"]") (.value (.arr []))
  | arr {n : Nat} {s : Bytes} {vs : List Json} : Spelled loose n s (.elements vs) →
      Spelled loose (n + 1) (b!"[" ++ s ++ b!"]") (.value (.arr vs))
  | emptyObj {n : Nat} {w : Bytes} : Ws w → Spelled loose (n + 1) (b!"{" ++ w ++ b!"}") (.value (.obj []))
  | obj {n : Nat} {s : Bytes} {ms : List (Bytes × Json)} : Spelled loose n s (.members ms) →
      Spelled loose (n + 1) (b!"{" ++ s ++ b!"}") (.value (.obj ms))
  | element {n : Nat} {a s b : Bytes} {v : Json} : Ws a → Spelled loose n s (.value v) → Ws b →
      Spelled loose n (a ++ s ++ b) (.elements [v])
  | elements {n : Nat} {a s b t : Bytes} {v : Json} {vs : List Json} : Ws a → Spelled loose n s (.value v) → Ws b →
      Spelled loose n t (.elements vs) → Spelled loose n (a ++ s ++ b ++ b!"," ++ t) (.elements (v :: vs))
  | member {n : Nat} {a k b c s d : Bytes} {key : Bytes} {v : Json} : Ws a → Chars loose k key → Ws b → Ws c →
      Spelled loose n s (.value v) → Ws d →
      Spelled loose n (a ++ b!"\"" ++ k ++ b!"\"" ++ b ++ b!":" ++ c ++ s ++ d) (.members [(key, v)])
  | members {n : Nat} {a k b c s d t : Bytes} {key : Bytes} {v : Json} {ms : List (Bytes × Json)} : Ws a → Chars loose k key →
      Ws b → Ws c → Spelled loose n s (.value v) → Ws d → Spelled loose n t (.members ms) →
      Spelled loose n (a ++ b!"\"" ++ k ++ b!"\"" ++ b ++ b!":" ++ c ++ s ++ d ++ b!"," ++ t) (.members ((key, v) :: ms))

/-- `Spells n s j`: the JSON text `s`, nested at most `n` deep, stands for `j`. -/
def Spells (n : Nat) (s : Bytes) (j : Json) : Prop :=
  ∃ a t b, Ws a ∧ Spelled False n t (.value j) ∧ Ws b ∧ s = a ++ t ++ b

/-- The same with strings that are not quite right. -/
def SpellsLoosely (n : Nat) (s : Bytes) (j : Json) : Prop :=
  ∃ a t b, Ws a ∧ Spelled True n t (.value j) ∧ Ws b ∧ s = a ++ t ++ b

/-- `Repaired s v`: `v` is `s` with the replacement character U+FFFD for each byte that is not part of
the UTF-8 of a character. -/
inductive Repaired : Bytes → Bytes → Prop
  | nil : Repaired [] []
  | char {n : Nat} {s v : Bytes} : Scalar n → Repaired s v → Repaired (utf8 n ++ s) (utf8 n ++ v)
  | stray {c : UInt8} {s v : Bytes} : (∀ n t, Scalar n → c :: s ≠ utf8 n ++ t) → Repaired s v →
      Repaired (c :: s) (utf8 0xFFFD ++ v)

/-- The same for the strings in a value. -/
inductive RepairedIn : Json → Json → Prop
  | null : RepairedIn .null .null
  | bool (b : Bool) : RepairedIn (.bool b) (.bool b)
  | num (s : Bytes) : RepairedIn (.num s) (.num s)
  | str {s v : Bytes} : Repaired s v → RepairedIn (.str s) (.str v)
  | arrNil : RepairedIn (.arr []) (.arr [])
  | arrCons {j k : Json} {js ks : List Json} : RepairedIn j k → RepairedIn (.arr js) (.arr ks) → RepairedIn (.arr (j :: js)) (.arr (k :: ks))
  | objNil : RepairedIn (.obj []) (.obj [])
  | objCons {s v : Bytes} {j k : Json} {js ks : List (Bytes × Json)} : Repaired s v → RepairedIn j k → RepairedIn (.obj js) (.obj ks) →
      RepairedIn (.obj ((s, j) :: js)) (.obj ((v, k) :: ks))

/-- The numbers in a value are as numbers are written. -/
inductive Numeric : Json → Prop
  | null : Numeric .null
  | bool (b : Bool) : Numeric (.bool b)
  | num {s : Bytes} : JsonNumber s → Numeric (.num s)
  | str (s : Bytes) : Numeric (.str s)
  | arr {vs : List Json} : (∀ v ∈ vs, Numeric v) → Numeric (.arr vs)
  | obj {ms : List (Bytes × Json)} : (∀ m ∈ ms, Numeric m.2) → Numeric (.obj ms)

/-- Values that have a spelling: strings and names are UTF-8, numbers are as numbers are written. -/
inductive Proper : Json → Prop
  | null : Proper .null
  | bool (b : Bool) : Proper (.bool b)
  | num {s : Bytes} : JsonNumber s → Proper (.num s)
  | str {s : Bytes} : Utf8 s → Proper (.str s)
  | arr {vs : List Json} : (∀ v ∈ vs, Proper v) → Proper (.arr vs)
  | obj {ms : List (Bytes × Json)} : (∀ m ∈ ms, Utf8 m.1) → (∀ m ∈ ms, Proper m.2) → Proper (.obj ms)

end Teal.JsonSpec
