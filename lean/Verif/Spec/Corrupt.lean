import Verif.Spec.Why

/-!
# Specification: base32 texts, and where a base32 or base64 text goes wrong
-/

namespace Teal.Spec

open Teal

/-- `k` symbols hold `n` bytes. -/
def shortGroups : List (Nat × Nat) := [(2, 1), (4, 2), (5, 3), (7, 4)]

/-- `Base32Of s bs`: `s` is a base32 text for `bs`: groups of eight symbols for five bytes, and at the end possibly a
shorter group, with padding or without, whose unused low bits may be anything.  Behind the padding there may be as
many bytes as there are symbols in front of it; they are ignored.  One, three or six symbols at the end, which are
not what any bytes are encoded as, stand for nothing. -/
inductive Base32Of : Bytes → Bytes → Prop
  | nil : Base32Of [] []
  | group (ds : List Nat) (g s bs : Bytes) (hd : ∀ d ∈ ds, d < 32) (hl : ds.length = 8) (hg : g.length = 5)
      (hv : bigEndian g = numeral 32 ds) (h : Base32Of s bs) : Base32Of (ds.map alphabet32 ++ s) (g ++ bs)
  | short (ds : List Nat) (bs : Bytes) (hd : ∀ d ∈ ds, d < 32) (hl : (ds.length, bs.length) ∈ shortGroups)
      (hv : bigEndian bs = numeral 32 ds / 2 ^ (5 * ds.length - 8 * bs.length)) : Base32Of (ds.map alphabet32) bs
  | lost (ds : List Nat) (hd : ∀ d ∈ ds, d < 32) (hl : ds.length ∈ [1, 3, 6]) : Base32Of (ds.map alphabet32) []
  | padded (ds : List Nat) (bs junk : Bytes) (hd : ∀ d ∈ ds, d < 32) (hl : (ds.length, bs.length) ∈ shortGroups)
      (hv : bigEndian bs = numeral 32 ds / 2 ^ (5 * ds.length - 8 * bs.length)) (hj : junk.length ≤ ds.length) :
      Base32Of (ds.map alphabet32 ++ (List.replicate (8 - ds.length) 61 ++ junk)) bs

/-- A symbol of base32. -/
def Symbol32 (c : UInt8) : Prop := ∃ n < 32, c = alphabet32 n

/-- A symbol of base64. -/
def Symbol64 (c : UInt8) : Prop := ∃ n < 64, c = alphabet64 n

/-- The bytes of which a base32 text is said to go wrong: the first that is not a symbol, padding included. -/
inductive Base32Fails : Bytes → Nat → Prop
  | other (good : Bytes) (c : UInt8) (s : Bytes) (hg : ∀ x ∈ good, Symbol32 x) (hc : ¬ Symbol32 c) :
      Base32Fails (good ++ c :: s) good.length

/-- The bytes of which a base64 text is said to go wrong.  `good` are the symbols in front. -/
inductive Base64Fails : Bytes → Nat → Prop
  /-- the text ends within a group of four: its first symbol -/
  | short (good last : Bytes) (hg : ∀ x ∈ good ++ last, Symbol64 x) (h4 : good.length % 4 = 0) (hl : last.length ∈ [1, 2, 3]) :
      Base64Fails (good ++ last) good.length
  /-- a byte that is neither a symbol nor padding -/
  | other (good : Bytes) (c : UInt8) (s : Bytes) (hg : ∀ x ∈ good, Symbol64 x) (hc : ¬ Symbol64 c) (he : c ≠ 61) :
      Base64Fails (good ++ c :: s) good.length
  /-- padding where none may be -/
  | early (good s : Bytes) (hg : ∀ x ∈ good, Symbol64 x) (h4 : good.length % 4 = 0 ∨ good.length % 4 = 1) :
      Base64Fails (good ++ 61 :: s) good.length
  /-- one `=` where there have to be two, at the end: the end -/
  | lone (good : Bytes) (hg : ∀ x ∈ good, Symbol64 x) (h4 : good.length % 4 = 2) : Base64Fails (good ++ [61]) (good.length + 1)
  /-- one `=` where there have to be two: this one -/
  | single (good : Bytes) (c : UInt8) (s : Bytes) (hg : ∀ x ∈ good, Symbol64 x) (h4 : good.length % 4 = 2) (hc : c ≠ 61) :
      Base64Fails (good ++ 61 :: c :: s) good.length
  /-- something behind the padding: its first byte -/
  | behind (good : Bytes) (c : UInt8) (s : Bytes) (n : Nat) (hg : ∀ x ∈ good, Symbol64 x) (hn : n = 1 ∨ n = 2) (h4 : (good.length + n) % 4 = 0) :
      Base64Fails (good ++ (List.replicate n 61 ++ c :: s)) (good.length + n)

/-- A text without line breaks, and without the byte 255, which no text in UTF-8 has. -/
def Unbroken (x : Bytes) : Prop := ∀ c ∈ x, c ≠ 13 ∧ c ≠ 10 ∧ c ≠ 255

/-- The texts of errors that say where a base32 or base64 constant goes wrong. -/
structure Locates (e : ErrorTexts) : Prop where
  base32 : ∀ x, Unbroken x → (∀ v, ¬ Base32Of x v) → ∃ n d, Base32Fails x n ∧ DecimalOf n d ∧ e.base32 x = b!"illegal base32 data at input byte " ++ d
  base64 : ∀ x, Unbroken x → (∀ v, ¬ Base64Of x v) → ∃ n d, Base64Fails x n ∧ DecimalOf n d ∧ e.base64 x = b!"illegal base64 data at input byte " ++ d

end Teal.Spec
