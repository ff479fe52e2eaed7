import Verif.Model.Basic

/-!
# What a number literal denotes

Written from the Go language's grammar of integer literals (which is what
`strconv.ParseUint(_, 0, 64)` promises), independently of the loops of the model.
-/

namespace Teal.Spec

/-- The value of a digit character: `0`-`9`, `a`-`f`, `A`-`F`. -/
def digitValue (c : UInt8) : Option Nat :=
  if 48 ≤ c ∧ c ≤ 57 then some (c.toNat - 48)
  else if 97 ≤ c ∧ c ≤ 102 then some (c.toNat - 87)
  else if 65 ≤ c ∧ c ≤ 70 then some (c.toNat - 55)
  else none

/-- The number a digit string denotes in a base, most significant digit first. -/
def numeral (base : Nat) (ds : List Nat) : Nat := ds.foldl (fun n d => n * base + d) 0

/-- `Digits base sep s ds`: `s` spells the digits `ds` in `base`.  A single underscore may
precede a digit, but only when `sep` holds, that is, directly after a digit or a base prefix. -/
inductive Digits (base : Nat) : Bool → Bytes → List Nat → Prop
  | nil (sep : Bool) : Digits base sep [] []
  | digit (sep : Bool) (c : UInt8) (d : Nat) (s : Bytes) (ds : List Nat)
      (hc : digitValue c = some d) (hd : d < base) (h : Digits base true s ds) :
      Digits base sep (c :: s) (d :: ds)
  | underscore (c : UInt8) (d : Nat) (s : Bytes) (ds : List Nat)
      (hc : digitValue c = some d) (hd : d < base) (h : Digits base true s ds) :
      Digits base true (95 :: c :: s) (d :: ds)

/-- The letters that select a base: `0b`, `0o`, `0x`, in either case. -/
def baseLetter (c : UInt8) (base : Nat) : Prop :=
  (base = 2 ∧ (c = 98 ∨ c = 66)) ∨ (base = 8 ∧ (c = 111 ∨ c = 79)) ∨
  (base = 16 ∧ (c = 120 ∨ c = 88))

/-- `IntLiteral s n`: the text `s` is an integer literal for the number `n`. -/
inductive IntLiteral : Bytes → Nat → Prop
  /-- decimal: does not start with `0` -/
  | decimal (c : UInt8) (s : Bytes) (ds : List Nat) (hc : c ≠ 48)
      (h : Digits 10 false (c :: s) ds) : IntLiteral (c :: s) (numeral 10 ds)
  /-- `0` alone, or `0` followed by octal digits -/
  | octal (s : Bytes) (ds : List Nat) (h : Digits 8 true s ds) :
      IntLiteral (48 :: s) (numeral 8 ds)
  /-- `0b…`, `0o…`, `0x…` -/
  | prefixed (base : Nat) (p c : UInt8) (s : Bytes) (ds : List Nat) (hp : baseLetter p base)
      (h : Digits base true (c :: s) ds) : IntLiteral (48 :: p :: c :: s) (numeral base ds)

/-- Plain digits (no underscore) in a base. -/
def PlainDigits (base : Nat) (s : Bytes) (ds : List Nat) : Prop :=
  s.map digitValue = ds.map some ∧ ∀ d ∈ ds, d < base

/-- The spellings of a signed number: an optional sign and plain decimal digits. -/
def SignedDecimal (s : Bytes) (i : Int) : Prop :=
  ∃ (digits : Bytes) (ds : List Nat), digits ≠ [] ∧ PlainDigits 10 digits ds ∧
    ((s = digits ∧ i = numeral 10 ds) ∨ (s = 43 :: digits ∧ i = numeral 10 ds) ∨
     (s = 45 :: digits ∧ i = - (numeral 10 ds : Int)))

/-- The decimal spelling of `n`: decimal digits, at least one, no leading zero unless `n = 0`. -/
def DecimalOf (n : Nat) (s : Bytes) : Prop :=
  ∃ ds, PlainDigits 10 s ds ∧ numeral 10 ds = n ∧ s ≠ [] ∧ (s.head? = some 48 → n = 0 ∧ s = [48])

end Teal.Spec
