import Verif.Lemmas.Utf8
import Verif.Spec.Lexer

/-! Helper lemmas: the lexer's loops in closed form, and the lexer against the grammar. -/

namespace Teal

open Spec

/-- Byte version of "not a terminator". -/
def qBare (c : UInt8) : Bool := decide (¬ Stop c)
def qBlank (c : UInt8) : Bool := decide (Blank c)
def qLine (c : UInt8) : Bool := decide (¬ Break c)

theorem toNat_eq_iff (c : UInt8) (k : Nat) (hk : k < 256) : c.toNat = k ↔ c = UInt8.ofNat k := by
  constructor
  · intro h; rw [← h]; simp
  · intro h; rw [h]; simp; omega

theorem qBare_high (x : UInt8) (h : 128 ≤ x.toNat) : qBare x = true := by
  apply decide_eq_true
  rintro ((h' | h') | (h' | h')) <;> (subst h'; exact absurd h (by decide))

theorem qLine_high (x : UInt8) (h : 128 ≤ x.toNat) : qLine x = true := by
  apply decide_eq_true
  rintro (h' | h') <;> (subst h'; exact absurd h (by decide))

theorem isTerminating_rune (c : UInt8) (t : Bytes) :
    isTerminating (decodeRune (c :: t)).1 = true ↔ Stop c := by
  simp only [isTerminating, Bool.or_eq_true, beq_iff_eq]
  rw [decodeRune_eq_iff c t 13 (by omega), decodeRune_eq_iff c t 10 (by omega),
    decodeRune_eq_iff c t 32 (by omega), decodeRune_eq_iff c t 9 (by omega),
    toNat_eq_iff _ 13 (by omega), toNat_eq_iff _ 10 (by omega), toNat_eq_iff _ 32 (by omega),
    toNat_eq_iff _ 9 (by omega)]
  show _ ↔ (c = 32 ∨ c = 9) ∨ (c = 13 ∨ c = 10)
  simp only [show UInt8.ofNat 13 = 13 from rfl, show UInt8.ofNat 10 = 10 from rfl,
    show UInt8.ofNat 32 = 32 from rfl, show UInt8.ofNat 9 = 9 from rfl]
  grind

theorem rune_eq (c : UInt8) (t : Bytes) (k : UInt8) (hk : k.toNat < 128) :
    (decodeRune (c :: t)).1 = k.toNat ↔ c = k := by
  rw [decodeRune_eq_iff c t _ hk]
  exact ⟨fun h => UInt8.toNat_inj.mp h, fun h => by rw [h]⟩

namespace Lexer

theorem rest_length (z : Lexer) : z.rest.length = z.source.length - z.i := by
  simp [rest]

theorem rest_inc (z : Lexer) (n : Nat) : (z.inc n).rest = z.rest.drop n := by
  simp [rest, inc, List.drop_drop]

@[simp] theorem inc_source (z : Lexer) (n : Nat) : (z.inc n).source = z.source := rfl
@[simp] theorem inc_i (z : Lexer) (n : Nat) : (z.inc n).i = z.i + n := rfl
@[simp] theorem inc_p (z : Lexer) (n : Nat) : (z.inc n).p = z.p := rfl
theorem inc_inc (z : Lexer) (a b : Nat) : (z.inc a).inc b = z.inc (a + b) := by
  simp [inc, Nat.add_assoc]
theorem inc_zero (z : Lexer) : z.inc 0 = z := by simp [inc]

theorem rest_nil_iff (z : Lexer) (h : z.i ≤ z.source.length) :
    z.rest = [] ↔ z.i = z.source.length := by
  simp [rest, List.drop_eq_nil_iff]; omega

theorem skipWhitespace_eq (fuel : Nat) : ∀ (z : Lexer), z.i ≤ z.source.length → z.p = z.i →
    z.rest.length < fuel →
    z.skipWhitespace fuel =
      { z with
        i := z.i + (z.rest.takeWhile qBlank).length
        p := z.i + (z.rest.takeWhile qBlank).length
        li := z.li + (z.rest.takeWhile qBlank).length } := by
  induction fuel with
  | zero => intro z _ _ h; omega
  | succ fuel ih =>
    intro z hi hp hf
    rw [skipWhitespace]
    by_cases he : z.i = z.source.length
    · have := (rest_nil_iff z hi).2 he
      simp [he, this]
      cases z; simp_all
    · have hne : z.rest ≠ [] := fun h => he ((rest_nil_iff z hi).1 h)
      obtain ⟨c, t, hr⟩ := List.exists_cons_of_ne_nil hne
      have hw := decodeRune_width_pos c t
      have hwl := decodeRune_width_le c t
      rw [if_neg he]
      simp only [hr]
      by_cases hb : Blank c
      · have hc : ¬ ((decodeRune (c :: t)).1 ≠ 32 ∧ (decodeRune (c :: t)).1 ≠ 9) := by
          have h32 := rune_eq c t 32 (by decide)
          have h9 := rune_eq c t 9 (by decide)
          simp at h32 h9
          rw [ne_eq, ne_eq, h32, h9]
          rcases hb with h | h <;> simp [h]
        have hasc : c.toNat < 128 := by rcases hb with h | h <;> (rw [h]; decide)
        rw [if_neg hc]
        have hd := decodeRune_ascii c t hasc
        simp only [hd]
        have hlen : z.rest.length = t.length + 1 := by rw [hr]; rfl
        rw [rest_length] at hlen hf
        have hrest : ({ z.inc 1 with p := (z.inc 1).i } : Lexer).rest = t := by
          show (z.inc 1).rest = t
          rw [rest_inc, hr]; rfl
        rw [ih]
        · rw [hrest]
          have : (c :: t).takeWhile qBlank = c :: t.takeWhile qBlank := by
            rw [List.takeWhile_cons_of_pos]; simp [qBlank, hb]
          rw [this]
          simp [inc]; omega
        · simp; omega
        · rfl
        · rw [hrest]; omega
      · have hc : (decodeRune (c :: t)).1 ≠ 32 ∧ (decodeRune (c :: t)).1 ≠ 9 := by
          have h32 := rune_eq c t 32 (by decide)
          have h9 := rune_eq c t 9 (by decide)
          simp at h32 h9
          constructor
          · intro h; exact hb (Or.inl (h32.1 h))
          · intro h; exact hb (Or.inr (h9.1 h))
        rw [if_pos hc]
        have : (c :: t).takeWhile qBlank = [] := by
          rw [List.takeWhile_cons_of_neg]; simp [qBlank, hb]
        rw [this]
        cases z; simp_all

theorem readBare_eq (fuel : Nat) : ∀ (z : Lexer), z.i ≤ z.source.length →
    z.rest.length < fuel →
    z.readBare fuel = (z.inc (z.rest.takeWhile qBare).length).emit .value := by
  induction fuel with
  | zero => intro z _ h; omega
  | succ fuel ih =>
    intro z hi hf
    rw [readBare]
    by_cases he : z.i = z.source.length
    · have := (rest_nil_iff z hi).2 he
      simp [he, this, inc_zero]
    · have hne : z.rest ≠ [] := fun h => he ((rest_nil_iff z hi).1 h)
      obtain ⟨c, t, hr⟩ := List.exists_cons_of_ne_nil hne
      have hw := decodeRune_width_pos c t
      have hwl := decodeRune_width_le c t
      have hlen : z.rest.length = t.length + 1 := by rw [hr]; rfl
      have hlen' := hlen
      rw [rest_length] at hlen'
      rw [if_neg he]
      simp only [hr]
      by_cases hs : Stop c
      · rw [if_pos ((isTerminating_rune c t).2 hs)]
        have : (c :: t).takeWhile qBare = [] := by
          rw [List.takeWhile_cons_of_neg]; simp [qBare, hs]
        rw [this]; simp [inc_zero]
      · rw [if_neg (fun h => hs ((isTerminating_rune c t).1 h))]
        rw [ih]
        · rw [takeWhile_rune qBare qBare_high c t (by simp [qBare, hs]), rest_inc, hr, inc_inc]
        · simp; omega
        · rw [rest_inc, List.length_drop]; omega

theorem readComment_eq (fuel : Nat) : ∀ (z : Lexer), z.i ≤ z.source.length → z.p + 2 ≤ z.i →
    z.rest.length < fuel →
    z.readComment fuel =
      (z.inc (z.rest.takeWhile qLine).length).push
        (z.slice (z.p + 2) (z.i + (z.rest.takeWhile qLine).length)) .comment := by
  induction fuel with
  | zero => intro z _ _ h; omega
  | succ fuel ih =>
    intro z hi hp hf
    rw [readComment]
    have hl : ¬ (z.i - z.p < 2) := by omega
    by_cases he : z.i = z.source.length
    · have := (rest_nil_iff z hi).2 he
      simp [he, this, inc_zero]
      omega
    · have hne : z.rest ≠ [] := fun h => he ((rest_nil_iff z hi).1 h)
      obtain ⟨c, t, hr⟩ := List.exists_cons_of_ne_nil hne
      have hw := decodeRune_width_pos c t
      have hwl := decodeRune_width_le c t
      have hlen : z.rest.length = t.length + 1 := by rw [hr]; rfl
      have hlen' := hlen
      rw [rest_length] at hlen'
      simp only [if_neg he, if_neg hl, hr]
      have h13 := rune_eq c t 13 (by decide)
      have h10 := rune_eq c t 10 (by decide)
      simp at h13 h10
      have hbr : ((decodeRune (c :: t)).1 = 13 ∨ (decodeRune (c :: t)).1 = 10) ↔ Break c := by
        rw [h13, h10]; rfl
      by_cases hs : Break c
      · rw [if_pos (hbr.2 hs)]
        have : (c :: t).takeWhile qLine = [] := by
          rw [List.takeWhile_cons_of_neg]; simp [qLine, hs]
        rw [this]; simp [inc_zero]
      · rw [if_neg (fun h => hs (hbr.1 h))]
        rw [ih]
        · rw [takeWhile_rune qLine qLine_high c t (by simp [qLine, hs]), rest_inc, hr, inc_inc]
          simp [slice, Nat.add_assoc]
        · simp; omega
        · simp; omega
        · rw [rest_inc, List.length_drop]; omega

/-- Index of the closing quote, given whether the previous byte was a backslash. -/
def closeAt : Bool → Bytes → Option Nat
  | _, [] => none
  | e, c :: t =>
    if c = chQuote ∧ e = false then some 0
    else (closeAt (decide (c = chBackslash)) t).map (· + 1)

theorem closeAt_append_high (a : Bytes) (ha : ∀ x ∈ a, 128 ≤ x.toNat) (hne : a ≠ []) (e : Bool)
    (t : Bytes) : closeAt e (a ++ t) = (closeAt false t).map (· + a.length) := by
  induction a generalizing e with
  | nil => exact absurd rfl hne
  | cons c a ih =>
    have hc := ha c (by simp)
    have h1 : c ≠ chQuote := by intro h; subst h; exact absurd hc (by decide)
    have h2 : c ≠ chBackslash := by intro h; subst h; exact absurd hc (by decide)
    simp only [List.cons_append, closeAt, h1, h2, false_and, if_false, decide_false]
    by_cases hn : a = []
    · subst hn; simp
    · rw [ih (fun x hx => ha x (by simp [hx])) hn]
      simp [Option.map_map, Function.comp_def, Nat.add_assoc]

theorem closeAt_rune (e : Bool) (c : UInt8) (t : Bytes) (h : ¬ (c = chQuote ∧ e = false)) :
    closeAt e (c :: t) =
      (closeAt (decide ((decodeRune (c :: t)).1 = 92)) ((c :: t).drop (decodeRune (c :: t)).2)).map
        (· + (decodeRune (c :: t)).2) := by
  have hbs := rune_eq c t 92 (by decide)
  simp at hbs
  obtain ⟨hpos, hle, h1, h2⟩ := decodeRune_cons c t
  by_cases hc : c.toNat < 128
  · simp only [h1 hc]
    rw [h1 hc] at hbs
    simp only [closeAt, if_neg h]
    simp [hbs]
  · obtain ⟨hhi, hall⟩ := h2 (by omega)
    have hne : ¬ (decodeRune (c :: t)).1 = 92 := by omega
    simp only [hne, decide_false]
    generalize (decodeRune (c :: t)).2 = n at *
    conv => lhs; rw [← List.take_append_drop n (c :: t)]
    rw [closeAt_append_high _ hall]
    · simp [List.length_take]
      simp at hle
      rw [Nat.min_eq_left hle]
    · intro hnil
      have := congrArg List.length hnil
      rw [List.length_take] at this; simp at this; omega

theorem readString_eq (fuel : Nat) : ∀ (p : Nat) (z : Lexer), z.i ≤ z.source.length →
    z.rest.length < fuel →
    z.readString fuel p =
      match closeAt (decide (p = 92)) z.rest with
      | none => (z.inc z.rest.length).fail .incompleteString
      | some k =>
        (z.inc (k + 1)).push
          (chQuote :: (unescapeQuotes (z.slice (z.p + 1) (z.i + k)) ++ [chQuote])) .value := by
  induction fuel with
  | zero => intro p z _ h; omega
  | succ fuel ih =>
    intro p z hi hf
    rw [readString]
    by_cases he : z.i = z.source.length
    · have := (rest_nil_iff z hi).2 he
      simp [he, this, inc_zero, closeAt]
    · have hne : z.rest ≠ [] := fun h => he ((rest_nil_iff z hi).1 h)
      obtain ⟨c, t, hr⟩ := List.exists_cons_of_ne_nil hne
      have hw := decodeRune_width_pos c t
      have hwl := decodeRune_width_le c t
      have hlen : z.rest.length = t.length + 1 := by rw [hr]; rfl
      have hlen' := hlen
      rw [rest_length] at hlen'
      simp only [if_neg he, hr]
      have h34 := rune_eq c t 34 (by decide)
      simp at h34
      by_cases hq : c = chQuote ∧ p ≠ 92
      · rw [if_pos ⟨h34.2 hq.1, hq.2⟩]
        have hcl : closeAt (decide (p = 92)) (c :: t) = some 0 := by
          simp [closeAt, hq.1, hq.2]
        rw [hcl]
        have hd := decodeRune_ascii c t (by rw [hq.1]; decide)
        simp [hd, slice, inc]
      · rw [if_neg (fun h => hq ⟨h34.1 h.1, h.2⟩)]
        rw [ih]
        · rw [closeAt_rune (decide (p = 92)) c t (by simpa using hq), rest_inc, hr]
          cases hcl : closeAt (decide ((decodeRune (c :: t)).1 = 92))
              ((c :: t).drop (decodeRune (c :: t)).2) with
          | none =>
            simp only [Option.map_none]
            rw [inc_inc, List.length_drop]
            congr 2; simp at *; omega
          | some k =>
            simp only [Option.map_some]
            rw [inc_inc]
            simp only [inc_p, inc_i]
            congr 1
            · congr 1; omega
            · simp [slice]; congr 3; omega
        · simp; omega
        · rw [rest_inc, List.length_drop]; omega

end Lexer

end Teal
