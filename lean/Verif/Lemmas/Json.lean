import Verif.Spec.Json
import Verif.Lemmas.Utf8
import Verif.Lemmas.Strconv

/-!
# JSON texts: lemmas
-/

namespace Teal.JsonSpec

open Teal

theorem toNat_toUInt8 (n : Nat) : n.toUInt8.toNat = n % 256 := by simp [Nat.toUInt8]

theorem utf8_eq (n : Nat) : Json.encodeRune n = utf8 n := rfl

theorem leadInfo_two {c : UInt8} (h : 0xC2 ≤ c.toNat) (h' : c.toNat ≤ 0xDF) : leadInfo c = some (2, 0x80, 0xBF) := by
  simp [leadInfo, inRange, h, h']

theorem inRange_iff (lo hi : Nat) (c : UInt8) : inRange lo hi c = true ↔ lo ≤ c.toNat ∧ c.toNat ≤ hi := by simp [inRange]

theorem leadInfo_three {c : UInt8} (h : 0xE0 ≤ c.toNat) (h' : c.toNat ≤ 0xEF) :
    leadInfo c = some (3, if c.toNat = 0xE0 then 0xA0 else 0x80, if c.toNat = 0xED then 0x9F else 0xBF) := by
  have key : ∀ c : UInt8, 0xE0 ≤ c.toNat → c.toNat ≤ 0xEF →
      leadInfo c = some (3, if c.toNat = 0xE0 then 0xA0 else 0x80, if c.toNat = 0xED then 0x9F else 0xBF) := by
    exact forall_byte (by decide +kernel)
  exact key c h h'

theorem leadInfo_four {c : UInt8} (h : 0xF0 ≤ c.toNat) (h' : c.toNat ≤ 0xF4) :
    leadInfo c = some (4, if c.toNat = 0xF0 then 0x90 else 0x80, if c.toNat = 0xF4 then 0x8F else 0xBF) := by
  have key : ∀ c : UInt8, 0xF0 ≤ c.toNat → c.toNat ≤ 0xF4 →
      leadInfo c = some (4, if c.toNat = 0xF0 then 0x90 else 0x80, if c.toNat = 0xF4 then 0x8F else 0xBF) := by
    exact forall_byte (by decide +kernel)
  exact key c h h'

/-- Decoding what `utf8` has encoded. -/
theorem decodeRune_utf8 {n : Nat} (h : Scalar n) (rest : Bytes) : decodeRune (utf8 n ++ rest) = (n, (utf8 n).length) := by
  unfold utf8
  by_cases h1 : n < 0x80
  · simp only [h1, if_true, List.cons_append, List.nil_append, List.length_cons, List.length_nil]
    have : n.toUInt8.toNat = n := by rw [toNat_toUInt8]; omega
    rw [decodeRune_ascii _ _ (by rw [this]; exact h1), this]
  by_cases h2 : n < 0x800
  · simp only [h1, h2, if_true, if_false, List.cons_append, List.nil_append, List.length_cons, List.length_nil]
    have e0 : (0xC0 + n / 64).toUInt8.toNat = 0xC0 + n / 64 := by rw [toNat_toUInt8]; omega
    have e1 : (0x80 + n % 64).toUInt8.toNat = 0x80 + n % 64 := by rw [toNat_toUInt8]; omega
    unfold decodeRune
    dsimp only
    rw [if_neg (by rw [e0]; omega), leadInfo_two (by rw [e0]; omega) (by rw [e0]; omega)]
    have : inRange 0x80 0xBF (0x80 + n % 64).toUInt8 = true := by rw [inRange_iff, e1]; omega
    simp only [this, Bool.not_true, Bool.false_eq_true, if_false, if_true]
    rw [e0, e1]
    simp only [Prod.mk.injEq, and_true]; omega
  by_cases h3 : n < 0x10000
  · simp only [h1, h2, h3, if_true, if_false, List.cons_append, List.nil_append, List.length_cons, List.length_nil]
    have e0 : (0xE0 + n / 4096).toUInt8.toNat = 0xE0 + n / 4096 := by rw [toNat_toUInt8]; omega
    have e1 : (0x80 + n / 64 % 64).toUInt8.toNat = 0x80 + n / 64 % 64 := by rw [toNat_toUInt8]; omega
    have e2 : (0x80 + n % 64).toUInt8.toNat = 0x80 + n % 64 := by rw [toNat_toUInt8]; omega
    unfold decodeRune
    dsimp only
    rw [if_neg (by rw [e0]; omega), leadInfo_three (by rw [e0]; omega) (by rw [e0]; omega)]
    have i1 : inRange (if (0xE0 + n / 4096).toUInt8.toNat = 0xE0 then 0xA0 else 0x80)
        (if (0xE0 + n / 4096).toUInt8.toNat = 0xED then 0x9F else 0xBF) (0x80 + n / 64 % 64).toUInt8 = true := by
      rw [inRange_iff, e0, e1]
      unfold Scalar at h
      constructor <;> split <;> omega
    have i2 : inRange 0x80 0xBF (0x80 + n % 64).toUInt8 = true := by rw [inRange_iff, e2]; omega
    simp only [i1, i2, Bool.not_true, Bool.false_eq_true, if_false, if_true, show ¬ (3 = 2) by decide]
    rw [e0, e1, e2]
    simp only [Prod.mk.injEq, and_true]; omega
  · have h4 : n < 0x110000 := by unfold Scalar at h; omega
    simp only [h1, h2, h3, if_false, List.cons_append, List.nil_append, List.length_cons, List.length_nil]
    have e0 : (0xF0 + n / 262144).toUInt8.toNat = 0xF0 + n / 262144 := by rw [toNat_toUInt8]; omega
    have e1 : (0x80 + n / 4096 % 64).toUInt8.toNat = 0x80 + n / 4096 % 64 := by rw [toNat_toUInt8]; omega
    have e2 : (0x80 + n / 64 % 64).toUInt8.toNat = 0x80 + n / 64 % 64 := by rw [toNat_toUInt8]; omega
    have e3 : (0x80 + n % 64).toUInt8.toNat = 0x80 + n % 64 := by rw [toNat_toUInt8]; omega
    unfold decodeRune
    dsimp only
    rw [if_neg (by rw [e0]; omega), leadInfo_four (by rw [e0]; omega) (by rw [e0]; omega)]
    have i1 : inRange (if (0xF0 + n / 262144).toUInt8.toNat = 0xF0 then 0x90 else 0x80)
        (if (0xF0 + n / 262144).toUInt8.toNat = 0xF4 then 0x8F else 0xBF) (0x80 + n / 4096 % 64).toUInt8 = true := by
      rw [inRange_iff, e0, e1]
      constructor <;> split <;> omega
    have i2 : inRange 0x80 0xBF (0x80 + n / 64 % 64).toUInt8 = true := by rw [inRange_iff, e2]; omega
    have i3 : inRange 0x80 0xBF (0x80 + n % 64).toUInt8 = true := by rw [inRange_iff, e3]; omega
    simp only [i1, i2, i3, Bool.not_true, Bool.false_eq_true, if_false, if_true, show ¬ (4 = 2) by decide, show ¬ (4 = 3) by decide]
    rw [e0, e1, e2, e3]
    simp only [Prod.mk.injEq, and_true]; omega

theorem toUInt8_toNat (c : UInt8) : c.toNat.toUInt8 = c := by
  apply UInt8.toNat.inj
  rw [toNat_toUInt8]
  have := c.toNat_lt
  omega

theorem eq_toUInt8 {c : UInt8} {n : Nat} (h : c.toNat = n) : n.toUInt8 = c := by rw [← h, toUInt8_toNat]

/-- What is decoded from a byte that is not ASCII: the replacement of one byte, or a scalar value. -/
theorem decodeRune_cases (c : UInt8) (s : Bytes) (h : 128 ≤ c.toNat) :
    decodeRune (c :: s) = (runeError, 1) ∨
    ∃ n rest, Scalar n ∧ 128 ≤ n ∧ c :: s = utf8 n ++ rest ∧ decodeRune (c :: s) = (n, (utf8 n).length) := by
  by_cases hx : ∃ n rest, Scalar n ∧ 128 ≤ n ∧ c :: s = utf8 n ++ rest
  · obtain ⟨n, rest, h1, h2, h3⟩ := hx
    exact .inr ⟨n, rest, h1, h2, h3, by rw [h3]; exact decodeRune_utf8 h1 rest⟩
  · left
    have hc := c.toNat_lt
    unfold decodeRune
    dsimp only
    rw [if_neg (by omega)]
    by_cases hA : 0xC2 ≤ c.toNat ∧ c.toNat ≤ 0xDF
    · rw [leadInfo_two hA.1 hA.2]
      cases s with
      | nil => rfl
      | cons c1 s1 =>
        dsimp only
        by_cases i1 : inRange 0x80 0xBF c1 = true
        · rw [inRange_iff] at i1
          exfalso
          apply hx
          refine ⟨(c.toNat % 32) * 64 + c1.toNat % 64, s1, by unfold Scalar; omega, by omega, ?_⟩
          unfold utf8
          rw [if_neg (by omega), if_pos (by omega), eq_toUInt8 (c := c) (by omega), eq_toUInt8 (c := c1) (by omega)]
          rfl
        · simp [i1]
    by_cases hB : 0xE0 ≤ c.toNat ∧ c.toNat ≤ 0xEF
    · rw [leadInfo_three hB.1 hB.2]
      match s with
      | [] => rfl
      | [c1] =>
        simp
      | c1 :: c2 :: s1 =>
        dsimp only
        by_cases i1 : inRange (if c.toNat = 0xE0 then 0xA0 else 0x80) (if c.toNat = 0xED then 0x9F else 0xBF) c1 = true
        · by_cases i2 : inRange 0x80 0xBF c2 = true
          · rw [inRange_iff] at i1 i2
            exfalso
            apply hx
            have h1 : 0x80 ≤ c1.toNat ∧ c1.toNat ≤ 0xBF ∧ (c.toNat = 0xE0 → 0xA0 ≤ c1.toNat) ∧ (c.toNat = 0xED → c1.toNat ≤ 0x9F) := by
              refine ⟨?_, ?_, ?_, ?_⟩
              · have := i1.1; split at this <;> omega
              · have := i1.2; split at this <;> omega
              · intro e; have := i1.1; rw [if_pos e] at this; exact this
              · intro e; have := i1.2; rw [if_pos e] at this; exact this
            refine ⟨(c.toNat % 16) * 4096 + (c1.toNat % 64) * 64 + c2.toNat % 64, s1, by unfold Scalar; omega, by omega, ?_⟩
            unfold utf8
            rw [if_neg (by omega), if_neg (by omega), if_pos (by omega), eq_toUInt8 (c := c) (by omega), eq_toUInt8 (c := c1) (by omega),
              eq_toUInt8 (c := c2) (by omega)]
            rfl
          · simp [i1, i2]
        · simp only [i1, Bool.not_false, if_true]
    by_cases hC : 0xF0 ≤ c.toNat ∧ c.toNat ≤ 0xF4
    · rw [leadInfo_four hC.1 hC.2]
      match s with
      | [] => rfl
      | [c1] =>
        simp
      | [c1, c2] =>
        simp
      | c1 :: c2 :: c3 :: s1 =>
        dsimp only
        by_cases i1 : inRange (if c.toNat = 0xF0 then 0x90 else 0x80) (if c.toNat = 0xF4 then 0x8F else 0xBF) c1 = true
        · by_cases i2 : inRange 0x80 0xBF c2 = true
          · by_cases i3 : inRange 0x80 0xBF c3 = true
            · rw [inRange_iff] at i1 i2 i3
              exfalso
              apply hx
              have h1 : 0x80 ≤ c1.toNat ∧ c1.toNat ≤ 0xBF ∧ (c.toNat = 0xF0 → 0x90 ≤ c1.toNat) ∧ (c.toNat = 0xF4 → c1.toNat ≤ 0x8F) := by
                refine ⟨?_, ?_, ?_, ?_⟩
                · have := i1.1; split at this <;> omega
                · have := i1.2; split at this <;> omega
                · intro e; have := i1.1; rw [if_pos e] at this; exact this
                · intro e; have := i1.2; rw [if_pos e] at this; exact this
              refine ⟨(c.toNat % 8) * 262144 + (c1.toNat % 64) * 4096 + (c2.toNat % 64) * 64 + c3.toNat % 64, s1,
                by unfold Scalar; omega, by omega, ?_⟩
              unfold utf8
              rw [if_neg (by omega), if_neg (by omega), if_neg (by omega), eq_toUInt8 (c := c) (by omega), eq_toUInt8 (c := c1) (by omega),
                eq_toUInt8 (c := c2) (by omega), eq_toUInt8 (c := c3) (by omega)]
              rfl
            · simp [i1, i2, i3]
          · simp [i1, i2]
        · simp only [i1, Bool.not_false, if_true]
    · have : leadInfo c = none := by
        have key : ∀ c : UInt8, ¬ (0xC2 ≤ c.toNat ∧ c.toNat ≤ 0xDF) → ¬ (0xE0 ≤ c.toNat ∧ c.toNat ≤ 0xEF) →
            ¬ (0xF0 ≤ c.toNat ∧ c.toNat ≤ 0xF4) → leadInfo c = none := forall_byte (by decide +kernel)
        exact key c hA hB hC
      rw [this]

theorem hexVal_iff (c : UInt8) (n : Nat) : Json.hexVal c = some n ↔ HexDigit c n := by
  constructor
  · intro h
    unfold Json.hexVal at h
    simp only [Bool.and_eq_true, decide_eq_true_eq, UInt8.le_iff_toNat_le] at h
    split at h
    · rename_i h1
      cases h
      exact .digit h1.1 h1.2
    · split at h
      · rename_i h1
        have h2 : 97 ≤ c.toNat := h1.1
        have h3 : c.toNat ≤ 102 := h1.2
        cases h
        rw [show c.toNat - 87 = 10 + (c.toNat - 97) by omega]
        exact .lower h2 h3
      · split at h
        · rename_i h1
          have h2 : 65 ≤ c.toNat := h1.1
          have h3 : c.toNat ≤ 70 := h1.2
          cases h
          rw [show c.toNat - 55 = 10 + (c.toNat - 65) by omega]
          exact .upper h2 h3
        · cases h
  · intro h
    unfold Json.hexVal
    simp only [Bool.and_eq_true, decide_eq_true_eq, UInt8.le_iff_toNat_le]
    have e1 : (48 : UInt8).toNat = 48 := rfl
    have e2 : (57 : UInt8).toNat = 57 := rfl
    have e3 : (97 : UInt8).toNat = 97 := rfl
    have e4 : (102 : UInt8).toNat = 102 := rfl
    have e5 : (65 : UInt8).toNat = 65 := rfl
    have e6 : (70 : UInt8).toNat = 70 := rfl
    rw [e1, e2, e3, e4, e5, e6]
    cases h with
    | digit h1 h2 => rw [if_pos ⟨h1, h2⟩]
    | lower h1 h2 => rw [if_neg (by omega), if_pos ⟨h1, h2⟩]; congr 1; omega
    | upper h1 h2 => rw [if_neg (by omega), if_neg (by omega), if_pos ⟨h1, h2⟩]; congr 1; omega

theorem HexDigit.lt {c : UInt8} {n : Nat} (h : HexDigit c n) : n < 16 := by cases h <;> omega

theorem Hex4.lt {h : Bytes} {n : Nat} (hh : Hex4 h n) : n < 0x10000 := by
  cases hh with
  | mk a b c d => have := a.lt; have := b.lt; have := c.lt; have := d.lt; omega

theorem Hex4.length {h : Bytes} {n : Nat} (hh : Hex4 h n) : h.length = 4 := by cases hh; rfl

theorem hex4_complete {h : Bytes} {n : Nat} (hh : Hex4 h n) (s : Bytes) : Json.hex4 (h ++ s) = some (n, s) := by
  cases hh with
  | mk a b c d =>
    simp only [List.cons_append, List.nil_append, Json.hex4, (hexVal_iff _ _).2 a, (hexVal_iff _ _).2 b, (hexVal_iff _ _).2 c, (hexVal_iff _ _).2 d]
    congr 2; omega

theorem hex4_sound {s t : Bytes} {n : Nat} (h : Json.hex4 s = some (n, t)) : ∃ g, s = g ++ t ∧ Hex4 g n := by
  match s, h with
  | a :: b :: c :: d :: s, h =>
    unfold Json.hex4 at h
    cases ha : Json.hexVal a <;> simp only [ha] at h <;> try contradiction
    cases hb : Json.hexVal b <;> simp only [hb] at h <;> try contradiction
    cases hc : Json.hexVal c <;> simp only [hc] at h <;> try contradiction
    cases hd : Json.hexVal d <;> simp only [hd] at h <;> try contradiction
    rename_i w x y z
    cases h
    refine ⟨[a, b, c, d], rfl, ?_⟩
    have := Hex4.mk ((hexVal_iff _ _).1 ha) ((hexVal_iff _ _).1 hb) ((hexVal_iff _ _).1 hc) ((hexVal_iff _ _).1 hd)
    rw [show ((w * 16 + x) * 16 + y) * 16 + z = w * 4096 + x * 256 + y * 16 + z by omega]
    exact this

theorem escapeOf_iff (c b : UInt8) : Json.escapeOf c = some b ↔ ShortEscape c b := by
  constructor
  · intro h
    unfold Json.escapeOf at h
    split at h
    · rename_i h1
      cases h
      rcases h1 with rfl | rfl | rfl
      · exact .quote
      · exact .backslash
      · exact .slash
    · repeat' split at h
      all_goals first | (cases h; rename_i e; rw [e]; constructor) | cases h
  · intro h
    cases h <;> rfl

theorem escapeOf_u : Json.escapeOf 117 = none := rfl

/-- The first byte of an encoded scalar. -/
theorem utf8_cons (n : Nat) : ∃ c t, utf8 n = c :: t ∧ (n < 128 → c.toNat = n ∧ t = []) ∧ (128 ≤ n → n < 0x110000 → 128 ≤ c.toNat) := by
  unfold utf8
  split
  · exact ⟨_, _, rfl, fun h => ⟨by rw [toNat_toUInt8]; omega, rfl⟩, fun h => by omega⟩
  · split
    · exact ⟨_, _, rfl, fun h => by omega, fun _ _ => by rw [toNat_toUInt8]; omega⟩
    · split
      · exact ⟨_, _, rfl, fun h => by omega, fun _ _ => by rw [toNat_toUInt8]; omega⟩
      · exact ⟨_, _, rfl, fun h => by omega, fun _ _ => by rw [toNat_toUInt8]; omega⟩

theorem Scalar.lt {n : Nat} (h : Scalar n) : n < 0x110000 := by unfold Scalar at h; omega

theorem unescapeU_plain {n : Nat} (h : Scalar n) (hn : n < 0x10000) (s : Bytes) : Json.unescapeU n s = (utf8 n, s) := by
  unfold Json.unescapeU
  have : Json.isSurrogate n = false := by
    unfold Scalar at h
    simp [Json.isSurrogate]; omega
  rw [this]; rfl

theorem unescapeU_pair {g : Bytes} {m n : Nat} (hg : Hex4 g n) (h1 : 0xD800 ≤ m) (h2 : m < 0xDC00) (h3 : 0xDC00 ≤ n) (h4 : n < 0xE000)
    (s : Bytes) : Json.unescapeU m (92 :: 117 :: g ++ s) = (utf8 (0x10000 + (m - 0xD800) * 0x400 + (n - 0xDC00)), s) := by
  unfold Json.unescapeU
  have e : Json.isSurrogate m = true := by simp [Json.isSurrogate]; omega
  rw [e]
  simp only [if_true, List.cons_append, hex4_complete hg]
  rw [if_pos (by simp; omega), utf8_eq,
    show (m - 0xD800) * 1024 + (n - 0xDC00) + 0x10000 = 0x10000 + (m - 0xD800) * 0x400 + (n - 0xDC00) by omega]

/-- A strictly spelled string is read. -/
theorem unquote_complete {s v : Bytes} (h : Chars False s v) : ∀ (fuel : Nat) (rest : Bytes), s.length < fuel →
    Json.unquote fuel (s ++ 34 :: rest) = some (v, rest) := by
  induction h with
  | nil =>
    intro fuel rest hf
    obtain ⟨fuel, rfl⟩ : ∃ k, fuel = k + 1 := ⟨fuel - 1, by omega⟩
    simp [Json.unquote]
  | @plain n s v hs h32 hq hb _ ih =>
    intro fuel rest hf
    obtain ⟨fuel, rfl⟩ : ∃ k, fuel = k + 1 := ⟨fuel - 1, by omega⟩
    obtain ⟨c, t, e, h1, h2⟩ := utf8_cons n
    have hdec := decodeRune_utf8 hs (s ++ 34 :: rest)
    rw [List.append_assoc]
    by_cases hn : n < 128
    · obtain ⟨hc, rfl⟩ := h1 hn
      rw [e] at hf ⊢
      simp only [List.cons_append, List.nil_append, Json.unquote]
      simp only [List.cons_append, List.length_cons, List.nil_append] at hf
      have c1 : ¬ c = 34 := fun h => hq (by rw [← hc, h]; rfl)
      have c2 : ¬ c = 92 := fun h => hb (by rw [← hc, h]; rfl)
      have c3 : ¬ c < 32 := by rw [UInt8.lt_iff_toNat_lt, hc]; show ¬ n < 32; omega
      have c4 : c < 128 := by rw [UInt8.lt_iff_toNat_lt, hc]; exact hn
      simp only [c1, c2, c3, c4, if_false, if_true]
      rw [ih fuel rest (by omega)]; rfl
    · have hc := h2 (by omega) hs.lt
      rw [e] at hf hdec ⊢
      simp only [List.cons_append, List.nil_append, Json.unquote]
      simp only [List.cons_append, List.length_append, List.length_cons, List.nil_append] at hf hdec
      have c1 : ¬ c = 34 := by rintro rfl; revert hc; decide
      have c2 : ¬ c = 92 := by rintro rfl; revert hc; decide
      have c3 : ¬ c < 32 := by rw [UInt8.lt_iff_toNat_lt]; show ¬ c.toNat < 32; omega
      have c4 : ¬ c < 128 := by rw [UInt8.lt_iff_toNat_lt]; show ¬ c.toNat < 128; omega
      simp only [c1, c2, c3, c4, if_false]
      rw [hdec]
      have hd : (c :: (t ++ (s ++ 34 :: rest))).drop (t.length + 1) = s ++ 34 :: rest := by simp
      dsimp only
      rw [hd, ih fuel rest (by omega), utf8_eq, e]
      rfl
  | short hc _ ih =>
    intro fuel rest hf
    obtain ⟨fuel, rfl⟩ : ∃ k, fuel = k + 1 := ⟨fuel - 1, by omega⟩
    rename_i c b s v _
    simp only [List.length_cons] at hf
    have he := (escapeOf_iff _ _).2 hc
    have hu : ¬ c = 117 := by rintro rfl; rw [escapeOf_u] at he; cases he
    simp only [List.cons_append, Json.unquote, show ¬ ((92 : UInt8) = 34) by decide, if_false, if_true, hu, he]
    rw [ih fuel rest (by omega)]; rfl
  | @code h n s v hh hs _ ih =>
    intro fuel rest hf
    obtain ⟨fuel, rfl⟩ : ∃ k, fuel = k + 1 := ⟨fuel - 1, by omega⟩
    simp only [List.length_cons, List.length_append, List.cons_append] at hf
    simp only [List.cons_append, List.append_assoc, Json.unquote, show ¬ ((92 : UInt8) = 34) by decide, if_false, if_true, hex4_complete hh,
      unescapeU_plain hs hh.lt]
    rw [ih fuel rest (by omega)]; rfl
  | @pair h g m n s v hh hg h1 h2 h3 h4 _ ih =>
    intro fuel rest hf
    obtain ⟨fuel, rfl⟩ : ∃ k, fuel = k + 1 := ⟨fuel - 1, by omega⟩
    simp only [List.length_cons, List.length_append, List.cons_append] at hf
    have hp := unescapeU_pair hg h1 h2 h3 h4 (s ++ 34 :: rest)
    simp only [List.cons_append] at hp
    simp only [List.cons_append, List.append_assoc, Json.unquote, show ¬ ((92 : UInt8) = 34) by decide, if_false, if_true, hex4_complete hh, hp]
    rw [ih fuel rest (by omega)]; rfl
  | half hl => exact hl.elim
  | stray hl => exact hl.elim

/-- What is read as a string is spelled, perhaps loosely. -/
theorem unquote_sound : ∀ (fuel : Nat) (s : Bytes) (v rest : Bytes), Json.unquote fuel s = some (v, rest) →
    ∃ b, s = b ++ 34 :: rest ∧ Chars True b v := by
  intro fuel
  induction fuel with
  | zero => intro s v rest h; cases h
  | succ fuel ih =>
    intro s v rest h
    cases s with
    | nil => cases h
    | cons c s =>
      simp only [Json.unquote] at h
      split at h
      · rename_i hc
        cases h
        exact ⟨[], by rw [hc]; rfl, .nil⟩
      split at h
      · rename_i _ hc
        cases s with
        | nil => cases h
        | cons e t =>
          simp only at h
          split at h
          · rename_i he
            split at h
            · cases h
            · rename_i r u hx
              obtain ⟨⟨v', rest'⟩, h1, h2⟩ := Option.map_eq_some_iff.1 h
              cases h2
              obtain ⟨g, rfl, hg⟩ := hex4_sound hx
              obtain ⟨b, hb, hcs⟩ := ih _ _ _ h1
              dsimp only at hb hcs ⊢
              by_cases hs : Scalar r
              · rw [unescapeU_plain hs hg.lt] at hb ⊢
                dsimp only at hb ⊢
                exact ⟨92 :: 117 :: g ++ b, by rw [hc, he, hb]; simp, .code hg hs hcs⟩
              · have hsur : Json.isSurrogate r = true := by
                  have := hg.lt
                  unfold Scalar at hs
                  simp [Json.isSurrogate]; omega
                have hr : 0xD800 ≤ r ∧ r < 0xE000 := by simpa [Json.isSurrogate] using hsur
                have single : Json.unescapeU r u = (Json.encodeRune runeError, u) →
                    ∃ b', c :: e :: (g ++ u) = b' ++ 34 :: rest' ∧ Chars True b' ((Json.unescapeU r u).1 ++ v') := by
                  intro hu
                  rw [hu] at hb ⊢
                  dsimp only at hb ⊢
                  exact ⟨92 :: 117 :: g ++ b, by rw [hc, he, hb]; simp, .half trivial hg hr.1 hr.2 hcs⟩
                by_cases hpair : ∃ g2 n u2, u = 92 :: 117 :: g2 ++ u2 ∧ Hex4 g2 n ∧ r < 0xDC00 ∧ 0xDC00 ≤ n ∧ n < 0xE000
                · obtain ⟨g2, n, u2, rfl, hg2, p1, p2, p3⟩ := hpair
                  rw [unescapeU_pair hg2 hr.1 p1 p2 p3] at hb ⊢
                  dsimp only at hb ⊢
                  exact ⟨92 :: 117 :: g ++ 92 :: 117 :: g2 ++ b, by rw [hc, he, hb]; simp, .pair hg hg2 hr.1 p1 p2 p3 hcs⟩
                · apply single
                  unfold Json.unescapeU
                  rw [hsur]
                  simp only [if_true]
                  split
                  · rename_i t2
                    split
                    · rename_i r2 u2 hx2
                      split
                      · rename_i hcond
                        obtain ⟨g2, rfl, hg2⟩ := hex4_sound hx2
                        exact (hpair ⟨g2, r2, u2, rfl, hg2, by simpa using hcond⟩).elim
                      · rfl
                    · rfl
                  · rfl
          · split at h
            · cases h
            · rename_i b hesc
              obtain ⟨⟨v', rest'⟩, h1, h2⟩ := Option.map_eq_some_iff.1 h
              cases h2
              obtain ⟨x, hx, hcs⟩ := ih _ _ _ h1
              exact ⟨92 :: e :: x, by rw [hc, hx]; rfl, .short ((escapeOf_iff _ _).1 hesc) hcs⟩
      split at h
      · cases h
      split at h
      · rename_i h1 h2 h3 h4
        obtain ⟨⟨v', rest'⟩, h5, h6⟩ := Option.map_eq_some_iff.1 h
        cases h6
        obtain ⟨x, hx, hcs⟩ := ih _ _ _ h5
        have hc4 : c.toNat < 128 := UInt8.lt_iff_toNat_lt.1 h4
        have e : utf8 c.toNat = [c] := by
          unfold utf8
          rw [if_pos hc4, toUInt8_toNat]
        refine ⟨c :: x, by rw [hx]; rfl, ?_⟩
        have := Chars.plain (loose := True) (n := c.toNat) (s := x) (v := v') (by unfold Scalar; omega)
          (by have := fun h => h3 (UInt8.lt_iff_toNat_lt.2 h); exact Nat.le_of_not_lt this)
          (fun h => h1 (UInt8.toNat.inj h)) (fun h => h2 (UInt8.toNat.inj h)) hcs
        rw [e] at this
        exact this
      · rename_i h1 h2 h3 h4
        obtain ⟨⟨v', rest'⟩, h5, h6⟩ := Option.map_eq_some_iff.1 h
        cases h6
        obtain ⟨x, hx, hcs⟩ := ih _ _ _ h5
        have hc4 : 128 ≤ c.toNat := Nat.le_of_not_lt fun h => h4 (UInt8.lt_iff_toNat_lt.2 h)
        rcases decodeRune_cases c s hc4 with hd | ⟨n, rest2, hs, hn, he, hd⟩
        · rw [hd] at hx ⊢
          simp only [List.drop_succ_cons, List.drop_zero] at hx
          exact ⟨c :: x, by rw [hx]; rfl, .stray trivial hc4 hcs⟩
        · rw [hd] at hx ⊢
          dsimp only at hx ⊢
          rw [he, List.drop_left] at hx
          exact ⟨utf8 n ++ x, by rw [he, hx, List.append_assoc], .plain hs (by omega) (by omega) (by omega) hcs⟩

end Teal.JsonSpec
