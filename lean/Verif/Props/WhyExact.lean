import Verif.Props.Why
import Verif.Spec.Json

/-!
# Bytes that are not ASCII in messages about constants (C122)
-/

namespace Teal.Props

open Teal Spec Teal.JsonSpec

theorem stringWhy_behind {q : Bytes → Bytes} {good bs : Bytes} (h : Denotes good bs) (r : Bytes) :
    stringWhy q (good ++ r) false false = stringWhy q r false false := by
  induction h with
  | nil => rfl
  | plain c s bs hc _ ih =>
    rw [List.cons_append, stringWhy, if_neg (by simp [chBackslash, hc])]
    simpa using ih
  | escape c v s bs hc _ ih =>
    have hx : c ≠ 120 := by
      rintro rfl
      exact absurd hc (by simp [escapeOf])
    rw [List.cons_append, List.cons_append, stringWhy, if_pos (by simp [chBackslash])]
    simp only [Bool.false_eq_true, if_false]
    rw [stringWhy, if_neg (by simp)]
    simp only [if_true, if_neg hx, (simpleEscape_iff c v).2 hc, Option.map_some, Bool.false_eq_true, if_false]
    exact ih
  | hex x y a b s bs hx hy _ ih =>
    have h92 : x ≠ 92 := by
      rintro rfl
      exact absurd hx (by decide +revert)
    have hw : uintBaseWhy 16 8 [x, y] = none :=
      (uintBaseWhy_none 16 8 [x, y]).2 (by rw [(parse_two_hex x y _).2 ⟨a, b, hx, hy, rfl⟩]; simp)
    simp only [List.cons_append]
    rw [stringWhy, if_pos (by simp [chBackslash])]
    simp only [Bool.false_eq_true, if_false]
    rw [stringWhy, if_neg (by simp)]
    simp only [if_true]
    rw [stringWhy, if_neg (by simp [chBackslash, h92])]
    simp only [Bool.false_eq_true, if_false, if_true, hw]
    exact ih

theorem hexWhy_behind : ∀ (n : Nat) (good : Bytes), good.length ≤ n → (∀ x ∈ good, (digitValue x).isSome) → ∀ (c : UInt8) (s : Bytes),
    digitValue c = none → hexWhy (good ++ c :: s) = some (invalidByte c)
  | _, [], _, _, c, [], hc => by rw [List.nil_append, hexWhy, hexVal_digit, if_pos hc]
  | _, [], _, _, c, d :: s, hc => by rw [List.nil_append, hexWhy, hexVal_digit, if_pos hc]
  | _, [p], _, hg, c, s, hc => by
    have hp := hg p (.head _)
    rw [List.cons_append, List.nil_append, hexWhy, hexVal_digit, hexVal_digit, if_neg (by intro h; simp [h] at hp), if_pos hc]
  | 0, _ :: _ :: _, hn, _, _, _, _ => by simp at hn
  | n + 1, p :: q :: g, hn, hg, c, s, hc => by
    have hp := hg p (.head _)
    have hq := hg q (.tail _ (.head _))
    rw [List.cons_append, List.cons_append, hexWhy, hexVal_digit, hexVal_digit, if_neg (by intro h; simp [h] at hp), if_neg (by intro h; simp [h] at hq)]
    exact hexWhy_behind n g (by simp only [List.length_cons] at hn; omega) (fun x hx => hg x (.tail _ (.tail _ hx))) c s hc

theorem byteRune_char (c : UInt8) : byteRune c = utf8 c.toNat := by
  have : ∀ c : UInt8, decide (byteRune c = utf8 c.toNat) = true := by apply forall_byte; decide +kernel
  simpa using this c

theorem latinPrint_iff (c : UInt8) : latinPrint c = true ↔ ¬ (c < 32 ∨ (127 ≤ c ∧ c ≤ 160) ∨ c = 173) := by
  have : ∀ c : UInt8, decide (latinPrint c = true ↔ ¬ (c < 32 ∨ (127 ≤ c ∧ c ≤ 160) ∨ c = 173)) = true := by apply forall_byte; decide +kernel
  exact of_decide_eq_true (this c)

/-- A digit of a number that is written in capitals. -/
def CapitalDigit (x : UInt8) (n : Nat) : Prop := digitValue x = some n ∧ ¬ (97 ≤ x ∧ x ≤ 122)

theorem upperHex_digit (n : Nat) (h : n < 16) : CapitalDigit (upperHex n) n := by
  revert n
  unfold CapitalDigit
  decide +kernel

/-- **C122** What is said of bytes that are not ASCII.  Behind a backslash, such a byte is taken for the character with
its number, which is then named in UTF-8.  In a text that should be hex, the first byte that is no digit is given as the
number of a character, with the character itself, in UTF-8, unless it is a control character, the no-break space or
the soft hyphen. -/
theorem C122_bytes (q base32 base64 addr : Bytes → Bytes) :
    (∀ good bs c s, Denotes good bs → 128 ≤ c →
      (goTexts q base32 base64 addr).string (34 :: ((good ++ 92 :: c :: s) ++ [34])) = b!"invalid escape seq \\" ++ utf8 c.toNat) ∧
    (∀ good c s, (∀ x ∈ good, (digitValue x).isSome) → digitValue c = none → ∃ a b,
      CapitalDigit a (c.toNat / 16) ∧ CapitalDigit b (c.toNat % 16) ∧
      (((c < 32 ∨ (127 ≤ c ∧ c ≤ 160) ∨ c = 173) →
          (goTexts q base32 base64 addr).hex (good ++ c :: s) = b!"encoding/hex: invalid byte: U+00" ++ [a, b]) ∧
        (¬ (c < 32 ∨ (127 ≤ c ∧ c ≤ 160) ∨ c = 173) →
          (goTexts q base32 base64 addr).hex (good ++ c :: s) =
            b!"encoding/hex: invalid byte: U+00" ++ [a, b] ++ b!" '" ++ utf8 c.toNat ++ b!"'"))) := by
  constructor
  · intro good bs c s hg hc
    show stringText q _ = _
    have hx : c ≠ 120 := by rintro rfl; exact absurd hc (by decide)
    have he : simpleEscape c = none := by
      cases h : simpleEscape c with
      | none => rfl
      | some v =>
        have := (simpleEscape_iff c v).1 h
        unfold escapeOf at this
        rcases this with h | h | h | h | h <;> (rw [h.1] at hc; exact absurd hc (by decide))
    rw [stringText_quoted, stringWhy_behind hg, stringWhy, if_pos (by simp [chBackslash])]
    simp only [Bool.false_eq_true, if_false]
    rw [stringWhy, if_neg (by simp)]
    simp only [if_true, if_neg hx, he, Option.map_none, byteRune_char]
    rfl
  · intro good c s hg hc
    have hlt := c.toNat_lt
    refine ⟨upperHex (c.toNat / 16), upperHex (c.toNat % 16), upperHex_digit _ (by omega), upperHex_digit _ (by omega), ?_, ?_⟩
    · intro h
      show (hexWhy _).getD [] = _
      rw [hexWhy_behind _ _ (Nat.le_refl _) hg c s hc]
      have hl : ¬ latinPrint c = true := fun hl => (latinPrint_iff c).1 hl h
      simp only [Option.getD_some, invalidByte, if_neg hl, List.append_nil]
    · intro h
      show (hexWhy _).getD [] = _
      rw [hexWhy_behind _ _ (Nat.le_refl _) hg c s hc]
      simp only [Option.getD_some, invalidByte, if_pos ((latinPrint_iff c).2 h), byteRune_char, List.append_assoc]

/-- The first byte of `é` behind a backslash; the no-break space and `é` between hex digits. -/
example : sampleGo.string (34 :: ((b!"a\\n" ++ 92 :: 195 :: [169]) ++ [34])) = b!"invalid escape seq \\" ++ [195, 131] ∧
    sampleGo.hex (b!"12a" ++ 160 :: b!"4") = b!"encoding/hex: invalid byte: U+00A0" ∧
    sampleGo.hex (b!"12a" ++ 195 :: [169]) = b!"encoding/hex: invalid byte: U+00C3 '" ++ [195, 131] ++ b!"'" := by
  refine ⟨?_, ?_, ?_⟩ <;> decide +kernel

end Teal.Props
