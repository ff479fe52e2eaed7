import Verif.Model.Utf8

/-! Facts about `decodeRune` used by the lexer proofs. -/

namespace Teal

theorem leadInfo_ge {c : UInt8} {n lo hi : Nat} (h : leadInfo c = some (n, lo, hi)) :
    0x80 ≤ lo ∧ hi ≤ 0xBF ∧
      ((n = 2 ∧ 0xC2 ≤ c.toNat ∧ c.toNat ≤ 0xDF) ∨ (n = 3 ∧ 0xE0 ≤ c.toNat ∧ c.toNat ≤ 0xEF ∧ (c.toNat = 0xE0 → 0xA0 ≤ lo)) ∨
        (n = 4 ∧ 0xF0 ≤ c.toNat ∧ c.toNat ≤ 0xF4 ∧ (c.toNat = 0xF0 → 0x90 ≤ lo))) := by
  unfold leadInfo inRange at h
  simp only [Bool.and_eq_true, decide_eq_true_eq] at h
  repeat' split at h
  all_goals (simp at h; try omega)

/-- Everything we need about `decodeRune` on a non-empty input: the width is positive and
within the input; an ASCII leading byte is itself, width one; otherwise the rune is not
ASCII and all bytes of the width are non-ASCII. -/
theorem decodeRune_cons (c : UInt8) (t : Bytes) :
    1 ≤ (decodeRune (c :: t)).2 ∧ (decodeRune (c :: t)).2 ≤ (c :: t).length ∧
    (c.toNat < 128 → decodeRune (c :: t) = (c.toNat, 1)) ∧
    (128 ≤ c.toNat → 128 ≤ (decodeRune (c :: t)).1 ∧
      ∀ x ∈ (c :: t).take (decodeRune (c :: t)).2, 128 ≤ x.toNat) := by
  generalize hp : decodeRune (c :: t) = p
  rw [decodeRune] at hp
  split at hp
  · rename_i h; subst hp; simp
  · rename_i h
    have hc : 128 ≤ c.toNat := by omega
    suffices k : 1 ≤ p.2 ∧ p.2 ≤ (c :: t).length ∧ 128 ≤ p.1 ∧ ∀ x ∈ (c :: t).take p.2, 128 ≤ x.toNat from
      ⟨k.1, k.2.1, fun h' => absurd h' h, fun _ => k.2.2⟩
    split at hp
    · subst hp; simp [runeError, hc]
    · rename_i n lo hi hl
      obtain ⟨hlo, hhi, hcases⟩ := leadInfo_ge hl
      split at hp
      · subst hp; simp [runeError, hc]
      · rename_i c1 rest1
        split at hp
        · subst hp; simp [runeError, hc]
        · rename_i hr
          simp [inRange] at hr
          have h1 : 128 ≤ c1.toNat := by omega
          split at hp
          · rename_i hn
            subst hp
            rcases hcases with hh | hh | hh <;> simp [hc, h1] <;> omega
          · rename_i hn
            split at hp
            · subst hp; simp [runeError, hc]
            · rename_i c2 rest2
              split at hp
              · subst hp; simp [runeError, hc]
              · rename_i hr2
                simp [inRange] at hr2
                have h2 : 128 ≤ c2.toNat := by omega
                split at hp
                · rename_i hn3
                  subst hp
                  rcases hcases with hh | hh | hh <;> simp [hc, h1, h2] <;> omega
                · rename_i hn3
                  split at hp
                  · subst hp; simp [runeError, hc]
                  · rename_i c3 rest3
                    split at hp
                    · subst hp; simp [runeError, hc]
                    · rename_i hr3
                      simp [inRange] at hr3
                      have h3 : 128 ≤ c3.toNat := by omega
                      subst hp
                      rcases hcases with hh | hh | hh <;> simp [hc, h1, h2, h3] <;> omega

theorem decodeRune_width_pos (c : UInt8) (t : Bytes) : 1 ≤ (decodeRune (c :: t)).2 :=
  (decodeRune_cons c t).1

theorem decodeRune_width_le (c : UInt8) (t : Bytes) :
    (decodeRune (c :: t)).2 ≤ t.length + 1 := (decodeRune_cons c t).2.1

/-- Comparing the decoded rune with an ASCII character is comparing the first byte. -/
theorem decodeRune_eq_iff (c : UInt8) (t : Bytes) (k : Nat) (hk : k < 128) :
    (decodeRune (c :: t)).1 = k ↔ c.toNat = k := by
  obtain ⟨_, _, h1, h2⟩ := decodeRune_cons c t
  by_cases hc : c.toNat < 128
  · rw [h1 hc]
  · have := (h2 (by omega)).1; omega

theorem decodeRune_ascii (c : UInt8) (t : Bytes) (h : c.toNat < 128) :
    decodeRune (c :: t) = (c.toNat, 1) := (decodeRune_cons c t).2.2.1 h

/-- Skipping one rune of a maximal run of bytes satisfying `q`. -/
theorem takeWhile_rune (q : UInt8 → Bool) (hq : ∀ x : UInt8, 128 ≤ x.toNat → q x = true)
    (c : UInt8) (t : Bytes) (hc : q c = true) :
    ((c :: t).takeWhile q).length =
      (decodeRune (c :: t)).2 + (((c :: t).drop (decodeRune (c :: t)).2).takeWhile q).length := by
  obtain ⟨hpos, hle, h1, h2⟩ := decodeRune_cons c t
  have hall : ∀ x ∈ (c :: t).take (decodeRune (c :: t)).2, q x = true := by
    by_cases h : c.toNat < 128
    · rw [h1 h]; simpa using hc
    · intro x hx; exact hq x ((h2 (by omega)).2 x hx)
  generalize hn : (decodeRune (c :: t)).2 = n at *
  have : (c :: t).takeWhile q = (c :: t).take n ++ ((c :: t).drop n).takeWhile q := by
    conv => lhs; rw [← List.take_append_drop n (c :: t)]
    rw [List.takeWhile_append_of_pos hall]
  rw [this, List.length_append, List.length_take]
  omega

end Teal
