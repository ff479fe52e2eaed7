import Verif.Model.Query
import Verif.Lemmas.Instr

/-! # What `strconv.Atoi` reads -/

namespace Teal.Lsp

open Teal Teal.Spec Teal.Props

theorem atoi_iff (s : Bytes) (i : Int) :
    atoi s = some i ↔ SignedDecimal s i ∧ -9223372036854775808 ≤ i ∧ i ≤ 9223372036854775807 := by
  unfold atoi
  cases s with
  | nil =>
    simp only [parseIntBase]
    constructor
    · intro h; cases h
    · rintro ⟨⟨digits, ds, h0, _, (h | h | h)⟩, _⟩
      · exact absurd h.1.symm h0
      · exact absurd h.1 (by simp)
      · exact absurd h.1 (by simp)
  | cons c t =>
    have core : ∀ (digits : Bytes) (un : Nat), parseUintBase 10 64 digits = some un ↔
        digits ≠ [] ∧ ∃ ds, PlainDigits 10 digits ds ∧ un = numeral 10 ds ∧ un < 18446744073709551616 :=
      fun digits un => parseUintBase_iff 10 64 (by decide) (by decide) (by decide) digits un
    by_cases hneg : c = 45
    · subst hneg
      have e : parseIntBase 10 64 (45 :: t) = match parseUintBase 10 64 t with
          | none => none
          | some un => if un > 9223372036854775808 then none else some (- (un : Int)) := by
        simp only [parseIntBase]
        simp
        cases parseUintBase 10 64 t <;> rfl
      rw [e]
      constructor
      · intro h
        cases hp : parseUintBase 10 64 t with
        | none => rw [hp] at h; simp at h
        | some un =>
          rw [hp] at h
          simp only at h
          obtain ⟨h0, ds, h1, h2, h3⟩ := (core t un).1 hp
          by_cases hg : un > 9223372036854775808
          · rw [if_pos hg] at h; cases h
          · rw [if_neg hg] at h
            have hi := Option.some.inj h
            subst hi
            refine ⟨⟨t, ds, h0, h1, Or.inr (Or.inr ⟨rfl, by rw [h2]⟩)⟩, by omega, by omega⟩
      · rintro ⟨⟨digits, ds, h0, h1, h2⟩, h3, h4⟩
        rcases h2 with ⟨h2, _⟩ | ⟨h2, _⟩ | ⟨h2, h5⟩
        · subst h2; exact absurd rfl (plainDigits_no_sign h1).2
        · exact absurd h2 (by simp)
        · have : t = digits := by simpa using h2
          subst this
          have hp := (core t (numeral 10 ds)).2 ⟨h0, ds, h1, rfl, by omega⟩
          rw [hp]
          simp only
          rw [if_neg (by omega), h5]
    · by_cases hpos : c = 43
      · subst hpos
        have e : parseIntBase 10 64 (43 :: t) = match parseUintBase 10 64 t with
            | none => none
            | some un => if un ≥ 9223372036854775808 then none else some (un : Int) := by
          simp only [parseIntBase]
          simp
          cases parseUintBase 10 64 t <;> rfl
        rw [e]
        constructor
        · intro h
          cases hp : parseUintBase 10 64 t with
          | none => rw [hp] at h; simp at h
          | some un =>
            rw [hp] at h
            simp only at h
            obtain ⟨h0, ds, h1, h2, h3⟩ := (core t un).1 hp
            by_cases hg : un ≥ 9223372036854775808
            · rw [if_pos hg] at h; cases h
            · rw [if_neg hg] at h
              have hi := Option.some.inj h
              subst hi
              refine ⟨⟨t, ds, h0, h1, Or.inr (Or.inl ⟨rfl, by rw [h2]⟩)⟩, by omega, by omega⟩
        · rintro ⟨⟨digits, ds, h0, h1, h2⟩, h3, h4⟩
          rcases h2 with ⟨h2, _⟩ | ⟨h2, h5⟩ | ⟨h2, _⟩
          · subst h2; exact absurd rfl (plainDigits_no_sign h1).1
          · have : t = digits := by simpa using h2
            subst this
            have hp := (core t (numeral 10 ds)).2 ⟨h0, ds, h1, rfl, by omega⟩
            rw [hp]
            simp only
            rw [if_neg (by omega), h5]
          · exact absurd h2 (by simp)
      · have e : parseIntBase 10 64 (c :: t) = match parseUintBase 10 64 (c :: t) with
            | none => none
            | some un => if un ≥ 9223372036854775808 then none else some (un : Int) := by
          simp only [parseIntBase]
          simp [hneg, hpos]
          cases parseUintBase 10 64 (c :: t) <;> rfl
        rw [e]
        constructor
        · intro h
          cases hp : parseUintBase 10 64 (c :: t) with
          | none => rw [hp] at h; simp at h
          | some un =>
            rw [hp] at h
            simp only at h
            obtain ⟨h0, ds, h1, h2, h3⟩ := (core (c :: t) un).1 hp
            by_cases hg : un ≥ 9223372036854775808
            · rw [if_pos hg] at h; cases h
            · rw [if_neg hg] at h
              have hi := Option.some.inj h
              subst hi
              refine ⟨⟨c :: t, ds, h0, h1, Or.inl ⟨rfl, by rw [h2]⟩⟩, by omega, by omega⟩
        · rintro ⟨⟨digits, ds, h0, h1, h2⟩, h3, h4⟩
          rcases h2 with ⟨h2, h5⟩ | ⟨h2, _⟩ | ⟨h2, _⟩
          · subst h2
            have hp := (core (c :: t) (numeral 10 ds)).2 ⟨h0, ds, h1, rfl, by omega⟩
            rw [hp]
            simp only
            rw [if_neg (by omega), h5]
          · exact absurd (List.cons.inj h2).1 hpos
          · exact absurd (List.cons.inj h2).1 hneg

end Teal.Lsp
