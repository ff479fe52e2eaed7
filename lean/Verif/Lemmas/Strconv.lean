import Verif.Model.Strconv
import Verif.Spec.Numbers

namespace Teal
open Spec

/-- Every statement about one byte can be checked on all 256. -/
theorem forall_byte {P : UInt8 → Prop} [DecidablePred P]
    (h : ∀ i : Fin 256, P (UInt8.ofNat i.val)) (c : UInt8) : P c := by
  have := h ⟨c.toNat, c.toNat_lt⟩
  simpa using this

theorem digitOf_small (c : UInt8) :
    ∀ d, d < 16 → (digitOf c = some d ↔ digitValue c = some d) := by
  revert c
  have : ∀ c : UInt8, ∀ d : Fin 16, (digitOf c = some d.val ↔ digitValue c = some d.val) := by
    apply forall_byte
    decide +kernel
  intro c d hd
  exact this c ⟨d, hd⟩

theorem digitOf_underscore : digitOf 95 = none := by decide
theorem digitValue_underscore : digitValue 95 = none := by decide

theorem digitValue_lt (c : UInt8) (d : Nat) (hd : digitValue c = some d) : d < 16 := by
  have : ∀ c : UInt8, (digitValue c).all (· < 16) = true := by
    apply forall_byte
    decide +kernel
  have h := this c
  rw [hd] at h
  simpa using h

theorem digitValue_ne95 {c : UInt8} {d : Nat} (h : digitValue c = some d) : c ≠ 95 := by
  rintro rfl
  rw [digitValue_underscore] at h
  cases h

theorem digitOf_ne95 {c : UInt8} {d : Nat} (h : digitOf c = some d) : c ≠ 95 := by
  rintro rfl
  rw [digitOf_underscore] at h
  cases h

/-! ### the accumulating loop -/

/-- The value of digits continuing from `n`. -/
def numeralFrom (base n : Nat) (ds : List Nat) : Nat := ds.foldl (fun n d => n * base + d) n

theorem numeralFrom_ge (base n : Nat) (hb : 1 ≤ base) (ds : List Nat) :
    n ≤ numeralFrom base n ds := by
  induction ds generalizing n with
  | nil => exact Nat.le_refl _
  | cons d ds ih =>
    have h1 := ih (n * base + d)
    have h2 : n * 1 ≤ n * base := Nat.mul_le_mul_left n hb
    show n ≤ numeralFrom base (n * base + d) ds
    omega

/-- Digits of `s` with underscores dropped, where underscores may stand anywhere. -/
def looseDigits (base0 : Bool) (base : Nat) : Bytes → Option (List Nat)
  | [] => some []
  | c :: s =>
    if c = 95 ∧ base0 then looseDigits base0 base s
    else match digitOf c with
      | none => none
      | some d => if d ≥ base then none else (looseDigits base0 base s).map (d :: ·)

theorem wrap_add (M q d : Nat) (hd : d < M) (hq : q < M) (maxVal : Nat) (hm : maxVal < M) :
    ((q + d) % M < q ∨ (q + d) % M > maxVal) ↔ q + d > maxVal := by
  by_cases h : q + d < M
  · rw [Nat.mod_eq_of_lt h]
    omega
  · rw [Nat.mod_eq_sub_mod (by omega), Nat.mod_eq_of_lt (by omega)]
    omega

theorem step_guards (M base maxVal n d : Nat) (hb1 : 1 ≤ base)
    (hm : maxVal < M) (hd : d < base) (hb2 : base ≤ 16) (hM : 16 < M) :
    ((n ≥ (M - 1) / base + 1) ∨
      (¬ (n ≥ (M - 1) / base + 1) ∧
        (((n * base) % M + d) % M < (n * base) % M ∨
          ((n * base) % M + d) % M > maxVal)))
      ↔ n * base + d > maxVal := by
  by_cases h : n ≥ (M - 1) / base + 1
  · have h' : M - 1 < n * base := by
      have : (M - 1) / base < n := h
      exact (Nat.div_lt_iff_lt_mul (by omega)).1 this
    constructor
    · intro _; omega
    · intro _; exact Or.inl h
  · have h' : n * base ≤ M - 1 := by
      have : n ≤ (M - 1) / base := by omega
      exact (Nat.le_div_iff_mul_le (by omega)).1 this
    have e1 : (n * base) % M = n * base := Nat.mod_eq_of_lt (by omega)
    rw [e1, ← wrap_add M (n * base) d (by omega) (by omega) maxVal hm]
    simp [h]

theorem parseDigits_eq (base0 : Bool) (base maxVal : Nat) (hb1 : 1 ≤ base) (hb2 : base ≤ 16)
    (hm : maxVal < two64) (s : Bytes) (n : Nat) (us : Bool) (hn : n ≤ maxVal) (r : Nat) (u : Bool) :
    parseDigits base0 base maxVal s n us = some (r, u) ↔
      ∃ ds, looseDigits base0 base s = some ds ∧ r = numeralFrom base n ds ∧ r ≤ maxVal ∧
        u = (us || (base0 && s.contains 95)) := by
  induction s generalizing n us with
  | nil =>
    simp only [parseDigits, looseDigits, Option.some.injEq, Prod.mk.injEq]
    constructor
    · rintro ⟨rfl, rfl⟩
      exact ⟨[], rfl, rfl, hn, by simp⟩
    · rintro ⟨ds, rfl, rfl, _, rfl⟩
      simp
  | cons c s ih =>
    by_cases hc : c = 95 ∧ base0
    · obtain ⟨rfl, rfl⟩ := hc
      simp only [parseDigits, looseDigits, and_self, if_true]
      rw [ih n true hn]
      simp
    · rw [parseDigits, looseDigits, if_neg hc, if_neg hc]
      have hcont : (base0 && (c :: s).contains 95) = (base0 && s.contains 95) := by
        cases base0
        · rfl
        · have : c ≠ 95 := fun h => hc ⟨h, rfl⟩
          simp [Ne.symm this]
      rw [hcont]
      cases hdig : digitOf c with
      | none => simp
      | some d =>
        simp only []
        by_cases hd : d ≥ base
        · simp [hd]
        · rw [if_neg hd, if_neg hd]
          have hg := step_guards two64 base maxVal n d hb1 hm (by omega) hb2 (by decide)
          by_cases hbig : n * base + d > maxVal
          · have hfail : ∀ ds, ¬ (numeralFrom base n (d :: ds) ≤ maxVal) := by
              intro ds hle
              have := numeralFrom_ge base (n * base + d) hb1 ds
              have e : numeralFrom base n (d :: ds) = numeralFrom base (n * base + d) ds := rfl
              omega
            have hnone : (if n ≥ (two64 - 1) / base + 1 then none
                else
                  let m := (n * base) % two64
                  let n1 := (m + d) % two64
                  if n1 < m ∨ n1 > maxVal then none
                  else parseDigits base0 base maxVal s n1 us) = none := by
              rcases hg.2 hbig with h | ⟨h, h2⟩
              · rw [if_pos h]
              · rw [if_neg h]
                simp only []
                rw [if_pos h2]
            rw [hnone]
            constructor
            · intro h; cases h
            · rintro ⟨ds, h1, h2, h3, _⟩
              cases hl : looseDigits base0 base s with
              | none => rw [hl] at h1; cases h1
              | some ds' =>
                rw [hl] at h1
                cases h1
                exact absurd (h2 ▸ h3) (hfail ds')
          · have hno := fun h => hbig (hg.1 h)
            have h1 : ¬ (n ≥ (two64 - 1) / base + 1) := fun h => hno (Or.inl h)
            rw [if_neg h1]
            have hlt : n * base + d < two64 := by omega
            have e1 : (n * base) % two64 = n * base := Nat.mod_eq_of_lt (by omega)
            have e2 : (n * base + d) % two64 = n * base + d := Nat.mod_eq_of_lt hlt
            rw [e1, e2, if_neg (by omega), ih (n * base + d) us (by omega)]
            constructor
            · rintro ⟨ds, a, b, c', e⟩
              exact ⟨d :: ds, by rw [a]; rfl, b, c', e⟩
            · rintro ⟨ds, a, b, c', e⟩
              cases hl : looseDigits base0 base s with
              | none => rw [hl] at a; cases a
              | some ds' =>
                rw [hl] at a
                cases a
                exact ⟨ds', rfl, b, c', e⟩

/-! ### where underscores may stand -/

theorem digit_underscore_class (hex : Bool) (base : Nat) (hb : base = 2 ∨ base = 8 ∨ base = 10 ∨ (base = 16 ∧ hex = true))
    (c : UInt8) (d : Nat) (hd : digitOf c = some d) (hlt : d < base) :
    (48 ≤ c ∧ c ≤ 57) ∨ (hex ∧ 97 ≤ lower c ∧ lower c ≤ 102) := by
  have key : ∀ c : UInt8, ∀ d : Fin 16, digitOf c = some d.val →
      ((48 ≤ c ∧ c ≤ 57) ∨ (10 ≤ d.val ∧ 97 ≤ lower c ∧ lower c ≤ 102)) := by
    apply forall_byte
    decide +kernel
  have h16 : d < 16 := by omega
  rcases key c ⟨d, h16⟩ hd with h | ⟨h1, h2⟩
  · exact Or.inl h
  · refine Or.inr ⟨?_, h2⟩
    simp only [] at h1
    rcases hb with h | h | h | h
    · omega
    · omega
    · omega
    · exact h.2

theorem loose_to_digits (hex : Bool) (base : Nat) (hb : base = 2 ∨ base = 8 ∨ base = 10 ∨ (base = 16 ∧ hex = true))
    (s : Bytes) : ∀ (saw : Saw), saw ≠ .other → ∀ ds,
    (looseDigits true base s = some ds ∧ underscoreLoop hex s saw = true) ↔
      (match saw with
        | .underscore => ∃ c d t ds', s = c :: t ∧ ds = d :: ds' ∧ digitValue c = some d ∧ d < base ∧
            Digits base true t ds'
        | .digit => Digits base true s ds
        | _ => Digits base false s ds) := by
  have hb16 : base ≤ 16 := by omega
  induction s with
  | nil =>
    intro saw hsaw ds
    cases saw with
    | start =>
      simp only [looseDigits, underscoreLoop]
      constructor
      · rintro ⟨h, _⟩; cases h; exact .nil _
      · intro h; cases h; exact ⟨rfl, by decide⟩
    | digit =>
      simp only [looseDigits, underscoreLoop]
      constructor
      · rintro ⟨h, _⟩; cases h; exact .nil _
      · intro h; cases h; exact ⟨rfl, by decide⟩
    | underscore =>
      simp only [looseDigits, underscoreLoop]
      constructor
      · rintro ⟨_, h⟩; simp at h
      · rintro ⟨c, d, t, ds', h, _⟩; cases h
    | other => exact absurd rfl hsaw
  | cons c s ih =>
    intro saw hsaw ds
    by_cases hc : c = 95
    · subst hc
      have hnot : ¬ (((48:UInt8) ≤ 95 ∧ (95:UInt8) ≤ 57) ∨ (hex = true ∧ 97 ≤ lower 95 ∧ lower 95 ≤ 102)) := by
        rintro (⟨_, h⟩ | ⟨_, _, h⟩)
        · exact absurd h (by decide)
        · exact absurd h (by decide)
      rw [looseDigits, if_pos ⟨rfl, rfl⟩, underscoreLoop, if_neg hnot, if_pos rfl]
      cases saw with
      | other => exact absurd rfl hsaw
      | start =>
        constructor
        · rintro ⟨_, h⟩; simp at h
        · intro h
          cases h with
          | digit _ _ d _ _ h1 _ _ => exact absurd rfl (digitValue_ne95 h1)
      | underscore =>
        constructor
        · rintro ⟨_, h⟩; simp at h
        · rintro ⟨c, d, t, ds', h, _, h1, _⟩
          cases h
          exact absurd rfl (digitValue_ne95 h1)
      | digit =>
        have := ih .underscore (by decide) ds
        simp only [ne_eq, not_true_eq_false, if_false]
        rw [this]
        constructor
        · rintro ⟨c, d, t, ds', rfl, rfl, h1, h2, h3⟩
          exact .underscore c d t ds' h1 h2 h3
        · intro h
          cases h with
          | digit _ _ d _ _ h1 _ _ => exact absurd rfl (digitValue_ne95 h1)
          | underscore c d t ds' h1 h2 h3 => exact ⟨c, d, t, ds', rfl, rfl, h1, h2, h3⟩
    · rw [looseDigits, if_neg (fun h => hc h.1)]
      cases hdig : digitOf c with
      | none =>
        constructor
        · rintro ⟨h, _⟩; cases h
        · intro h
          exfalso
          have hv : ∀ d, d < base → digitValue c ≠ some d := by
            intro d hd hv
            rw [← digitOf_small c d (by omega), hdig] at hv
            cases hv
          cases saw with
          | other => exact absurd rfl hsaw
          | start =>
            cases h with
            | digit _ _ d _ _ h1 h2 _ => exact hv d h2 h1
          | underscore =>
            obtain ⟨c', d, t, ds', h, _, h1, h2, _⟩ := h
            cases h
            exact hv d h2 h1
          | digit =>
            cases h with
            | digit _ _ d _ _ h1 h2 _ => exact hv d h2 h1
            | underscore => exact hc rfl
      | some d =>
        simp only []
        by_cases hd : d ≥ base
        · rw [if_pos hd]
          constructor
          · rintro ⟨h, _⟩; cases h
          · intro h
            exfalso
            have hv : ∀ d, d < base → digitValue c ≠ some d := by
              intro d' hd' hv
              rw [← digitOf_small c d' (by omega), hdig] at hv
              cases hv
              omega
            cases saw with
            | other => exact absurd rfl hsaw
            | start =>
              cases h with
              | digit _ _ d _ _ h1 h2 _ => exact hv d h2 h1
            | underscore =>
              obtain ⟨c', d, t, ds', h, _, h1, h2, _⟩ := h
              cases h
              exact hv d h2 h1
            | digit =>
              cases h with
              | digit _ _ d _ _ h1 h2 _ => exact hv d h2 h1
              | underscore => exact hc rfl
        · rw [if_neg hd, underscoreLoop, if_pos (digit_underscore_class hex base hb c d hdig (by omega))]
          have hval : digitValue c = some d := (digitOf_small c d (by omega)).1 hdig
          have IH := ih .digit (by decide)
          simp only [] at IH
          have left : ((looseDigits true base s).map (d :: ·) = some ds ∧
              underscoreLoop hex s .digit = true) ↔ ∃ ds', ds = d :: ds' ∧ Digits base true s ds' := by
            constructor
            · rintro ⟨h1, h2⟩
              cases hl : looseDigits true base s with
              | none => rw [hl] at h1; cases h1
              | some ds' =>
                rw [hl] at h1
                cases h1
                exact ⟨ds', rfl, (IH ds').1 ⟨hl, h2⟩⟩
            · rintro ⟨ds', rfl, h⟩
              obtain ⟨h1, h2⟩ := (IH ds').2 h
              exact ⟨by rw [h1]; rfl, h2⟩
          rw [left]
          have uniq : ∀ d', digitValue c = some d' → d' = d := by
            intro d' h; rw [hval] at h; cases h; rfl
          cases saw with
          | other => exact absurd rfl hsaw
          | start =>
            constructor
            · rintro ⟨ds', rfl, h⟩; exact .digit _ c d s ds' hval (by omega) h
            · intro h
              cases h with
              | digit _ _ d' _ ds' h1 h2 h3 => exact ⟨ds', by rw [uniq d' h1], h3⟩
          | underscore =>
            constructor
            · rintro ⟨ds', rfl, h⟩; exact ⟨c, d, s, ds', rfl, rfl, hval, by omega, h⟩
            · rintro ⟨c', d', t, ds', h, rfl, h1, h2, h3⟩
              cases h
              exact ⟨ds', by rw [uniq d' h1], h3⟩
          | digit =>
            constructor
            · rintro ⟨ds', rfl, h⟩; exact .digit _ c d s ds' hval (by omega) h
            · intro h
              cases h with
              | digit _ _ d' _ ds' h1 h2 h3 => exact ⟨ds', by rw [uniq d' h1], h3⟩
              | underscore => exact absurd rfl hc

/-- Text without an underscore has no misplaced one. -/
theorem underscoreLoop_free (hex : Bool) (base : Nat)
    (hb : base = 2 ∨ base = 8 ∨ base = 10 ∨ (base = 16 ∧ hex = true))
    (s : Bytes) (saw : Saw) (hs : saw ≠ .underscore) (ds : List Nat)
    (h : looseDigits true base s = some ds) (hu : s.contains 95 = false) :
    underscoreLoop hex s saw = true := by
  induction s generalizing saw ds with
  | nil => simp [underscoreLoop, hs]
  | cons c s ih =>
    rw [List.contains_cons] at hu
    have hc : c ≠ 95 := by
      rintro rfl
      simp at hu
    rw [looseDigits, if_neg (fun h => hc h.1)] at h
    cases hdig : digitOf c with
    | none => rw [hdig] at h; cases h
    | some d =>
      rw [hdig] at h
      simp only [] at h
      by_cases hd : d ≥ base
      · rw [if_pos hd] at h; cases h
      · rw [if_neg hd] at h
        rw [underscoreLoop, if_pos (digit_underscore_class hex base hb c d hdig (by omega))]
        cases hl : looseDigits true base s with
        | none => rw [hl] at h; cases h
        | some ds' => exact ih .digit (by decide) ds' hl (by simp at hu ⊢; exact hu.2)

/-- `ParseUint` after the base is chosen, with the underscore check written as `chk`. -/
theorem parse_core (bits : Nat) (hbits : bits ≤ 64) (hex : Bool) (base : Nat)
    (hb : base = 2 ∨ base = 8 ∨ base = 10 ∨ (base = 16 ∧ hex = true))
    (body : Bytes) (saw : Saw) (hsaw : saw = .start ∨ saw = .digit) (n : Nat) :
    (match parseDigits true base (2 ^ bits - 1) body 0 false with
      | none => none
      | some (n, us) => if us && !underscoreLoop hex body saw then none else some n) = some n ↔
    ∃ ds, Digits base (decide (saw = .digit)) body ds ∧ n = numeral base ds ∧ n < 2 ^ bits := by
  have hmax : 2 ^ bits - 1 < two64 := by
    have h1 : 2 ^ bits ≤ 2 ^ 64 := Nat.pow_le_pow_right (by decide) hbits
    have h2 : 0 < 2 ^ bits := Nat.pow_pos (by decide)
    show 2 ^ bits - 1 < 2 ^ 64
    omega
  have hpos : 0 < 2 ^ bits := Nat.pow_pos (by decide)
  have hP := parseDigits_eq true base (2 ^ bits - 1) (by omega) (by omega) hmax body 0 false (by omega)
  have hD := loose_to_digits hex base hb body saw (by rcases hsaw with h | h <;> rw [h] <;> decide)
  have hD' : ∀ ds, (looseDigits true base body = some ds ∧ underscoreLoop hex body saw = true) ↔
      Digits base (decide (saw = .digit)) body ds := by
    intro ds
    rw [hD ds]
    rcases hsaw with h | h <;> subst h <;> simp
  have hF := underscoreLoop_free hex base hb body saw
    (by rcases hsaw with h | h <;> rw [h] <;> decide)
  constructor
  · intro h
    cases hp : parseDigits true base (2 ^ bits - 1) body 0 false with
    | none => rw [hp] at h; cases h
    | some p =>
      obtain ⟨r, u⟩ := p
      rw [hp] at h
      simp only [] at h
      obtain ⟨ds, h1, h2, h3, h4⟩ := (hP r u).1 hp
      by_cases hok : underscoreLoop hex body saw = true
      · rw [hok] at h
        simp at h
        subst h
        exact ⟨ds, (hD' ds).1 ⟨h1, hok⟩, h2, by omega⟩
      · have hu : u = true := by
          cases hc : body.contains 95 with
          | false => exact absurd (hF ds h1 hc) hok
          | true => rw [h4, hc]; rfl
        rw [hu] at h
        simp [hok] at h
  · rintro ⟨ds, h1, h2, h3⟩
    obtain ⟨h4, h5⟩ := (hD' ds).2 h1
    rw [(hP n _).2 ⟨ds, h4, h2, by omega, rfl⟩]
    simp [h5]

theorem underscoreOK_plain {c : UInt8} (hc : c ≠ 48) (s : Bytes) :
    underscoreOK (c :: s) = underscoreLoop false (c :: s) .start := by
  unfold underscoreOK
  split
  · rename_i h; cases h; exact absurd rfl hc
  · rfl

theorem underscoreLoop_zero (s : Bytes) :
    underscoreLoop false (48 :: s) .start = underscoreLoop false s .digit := by
  rw [underscoreLoop, if_pos (Or.inl (by decide))]

/-- The letters strconv recognises as base prefixes. -/
def isBaseLetter (c : UInt8) : Bool := lower c = 98 ∨ lower c = 111 ∨ lower c = 120

theorem lower_letter (c : UInt8) :
    (lower c = 98 ↔ (c = 98 ∨ c = 66)) ∧ (lower c = 111 ↔ (c = 111 ∨ c = 79)) ∧
    (lower c = 120 ↔ (c = 120 ∨ c = 88)) := by
  revert c
  apply forall_byte
  decide +kernel

theorem isBaseLetter_not_octal (c : UInt8) (h : isBaseLetter c = true) :
    c ≠ 95 ∧ ∀ d, d < 8 → digitOf c ≠ some d := by
  have key : ∀ c : UInt8, isBaseLetter c = true → c ≠ 95 ∧ ∀ d : Fin 8, digitOf c ≠ some d.val := by
    apply forall_byte
    decide +kernel
  obtain ⟨h1, h2⟩ := key c h
  exact ⟨h1, fun d hd => h2 ⟨d, hd⟩⟩

theorem not_digits_octal {c : UInt8} (h : isBaseLetter c = true) (sep : Bool) (s : Bytes) (ds : List Nat) :
    ¬ Digits 8 sep (c :: s) ds := by
  obtain ⟨h1, h2⟩ := isBaseLetter_not_octal c h
  intro hd
  cases hd with
  | digit _ _ d _ _ hc hlt _ => exact h2 d hlt ((digitOf_small c d (by omega)).2 hc)
  | underscore => exact h1 rfl

theorem parseUint0_iff (bits : Nat) (hbits : bits ≤ 64) (s : Bytes) (n : Nat) :
    parseUint0 bits s = some n ↔ IntLiteral s n ∧ n < 2 ^ bits := by
  cases s with
  | nil =>
    rw [parseUint0, if_pos rfl]
    constructor
    · intro h; cases h
    · rintro ⟨h, _⟩; cases h
  | cons c s =>
    rw [parseUint0, if_neg (by simp)]
    simp only []
    by_cases hc : c = 48
    · subst hc
      have octal : ∀ (hpre : basePrefix (48 :: s) = (8, s))
          (hok : underscoreOK (48 :: s) = underscoreLoop false s .digit)
          (hno : ∀ p c t, s = p :: c :: t → isBaseLetter p = false),
          ((match parseDigits true (basePrefix (48 :: s)).1 (2 ^ bits - 1) (basePrefix (48 :: s)).2 0 false with
            | none => none
            | some (n, us) => if us && !underscoreOK (48 :: s) then none else some n) = some n ↔
            IntLiteral (48 :: s) n ∧ n < 2 ^ bits) := by
        intro hpre hok hno
        rw [hpre, hok]
        simp only []
        rw [parse_core bits hbits false 8 (by omega) s .digit (Or.inr rfl) n]
        constructor
        · rintro ⟨ds, h1, rfl, h3⟩
          exact ⟨.octal s ds (by simpa using h1), h3⟩
        · rintro ⟨h, h3⟩
          cases h with
          | decimal _ _ _ h => exact absurd rfl h
          | octal _ ds h => exact ⟨ds, by simpa using h, rfl, h3⟩
          | prefixed base p c t ds hp h =>
            exfalso
            have := hno p c t rfl
            have hl := lower_letter p
            rcases hp with ⟨_, h⟩ | ⟨_, h⟩ | ⟨_, h⟩
            · have := hl.1.2 h; simp_all [isBaseLetter]
            · have := hl.2.1.2 h; simp_all [isBaseLetter]
            · have := hl.2.2.2 h; simp_all [isBaseLetter]
      match s with
      | [] => exact octal rfl (by decide) (by intro p c t h; cases h)
      | [p] =>
        by_cases hp : isBaseLetter p = true
        · obtain ⟨h1, h2⟩ := isBaseLetter_not_octal p hp
          have hpre : basePrefix [48, p] = (8, [p]) := rfl
          have hbad : parseDigits true 8 (2 ^ bits - 1) [p] 0 false = none := by
            rw [parseDigits, if_neg (fun h => h1 h.1)]
            cases hd : digitOf p with
            | none => rfl
            | some d =>
              simp only []
              rw [if_pos]
              apply Nat.le_of_not_lt
              intro hlt
              exact h2 d hlt hd
          rw [hpre]
          simp only []
          rw [hbad]
          constructor
          · intro h; cases h
          · rintro ⟨h, _⟩
            exfalso
            cases h with
            | decimal _ _ _ h => exact absurd rfl h
            | octal _ ds h => exact not_digits_octal hp _ _ _ h
        · refine octal rfl ?_ (by intro p c t h; cases h)
          rw [underscoreOK, if_neg (by simpa [isBaseLetter] using hp), underscoreLoop_zero]
      | p :: d :: t =>
        have hl := lower_letter p
        by_cases hp : isBaseLetter p = true
        · -- one of the three prefixes
          have step : ∀ (base : Nat) (hex : Bool)
              (hb : base = 2 ∨ base = 8 ∨ base = 10 ∨ (base = 16 ∧ hex = true))
              (hpre : basePrefix (48 :: p :: d :: t) = (base, d :: t))
              (hok : underscoreOK (48 :: p :: d :: t) = underscoreLoop hex (d :: t) .digit)
              (hbl : baseLetter p base) (honly : ∀ b, baseLetter p b → b = base),
              ((match parseDigits true (basePrefix (48 :: p :: d :: t)).1 (2 ^ bits - 1)
                  (basePrefix (48 :: p :: d :: t)).2 0 false with
                | none => none
                | some (n, us) => if us && !underscoreOK (48 :: p :: d :: t) then none else some n)
                  = some n ↔ IntLiteral (48 :: p :: d :: t) n ∧ n < 2 ^ bits) := by
            intro base hex hb hpre hok hbl honly
            rw [hpre, hok]
            simp only []
            rw [parse_core bits hbits hex base hb (d :: t) .digit (Or.inr rfl) n]
            constructor
            · rintro ⟨ds, h1, rfl, h3⟩
              exact ⟨.prefixed base p d t ds hbl (by simpa using h1), h3⟩
            · rintro ⟨h, h3⟩
              cases h with
              | decimal _ _ _ h => exact absurd rfl h
              | octal _ ds h => exact absurd h (not_digits_octal hp _ _ _)
              | prefixed b _ _ _ ds hb' h =>
                have := honly b hb'
                subst this
                exact ⟨ds, by simpa using h, rfl, h3⟩
          have only : ∀ b b', baseLetter p b → baseLetter p b' → b = b' := by
            intro b b' h1 h2
            rcases h1 with ⟨rfl, h1 | h1⟩ | ⟨rfl, h1 | h1⟩ | ⟨rfl, h1 | h1⟩ <;>
            rcases h2 with ⟨rfl, h2 | h2⟩ | ⟨rfl, h2 | h2⟩ | ⟨rfl, h2 | h2⟩ <;>
            first | rfl | (exfalso; rw [h1] at h2; revert h2; decide)
          have hp' : lower p = 98 ∨ lower p = 111 ∨ lower p = 120 := by
            simpa [isBaseLetter] using hp
          rcases hp' with h | h | h
          · refine step 2 false (by omega) ?_ ?_ (Or.inl ⟨rfl, hl.1.1 h⟩)
              (fun b hb => only b 2 hb (Or.inl ⟨rfl, hl.1.1 h⟩))
            · rw [basePrefix, if_pos h]
            · rw [underscoreOK, if_pos (Or.inl h), h]; rfl
          · refine step 8 false (by omega) ?_ ?_ (Or.inr (Or.inl ⟨rfl, hl.2.1.1 h⟩))
              (fun b hb => only b 8 hb (Or.inr (Or.inl ⟨rfl, hl.2.1.1 h⟩)))
            · rw [basePrefix, h]; rfl
            · rw [underscoreOK, if_pos (Or.inr (Or.inl h)), h]; rfl
          · refine step 16 true (Or.inr (Or.inr (Or.inr ⟨rfl, rfl⟩))) ?_ ?_
              (Or.inr (Or.inr ⟨rfl, hl.2.2.1 h⟩))
              (fun b hb => only b 16 hb (Or.inr (Or.inr ⟨rfl, hl.2.2.1 h⟩)))
            · rw [basePrefix, h]; rfl
            · rw [underscoreOK, if_pos (Or.inr (Or.inr h)), h]; rfl
        · have hp' : ¬ (lower p = 98 ∨ lower p = 111 ∨ lower p = 120) := by
            simpa [isBaseLetter] using hp
          refine octal ?_ ?_ ?_
          · rw [basePrefix, if_neg (fun h => hp' (Or.inl h)), if_neg (fun h => hp' (Or.inr (Or.inl h))),
              if_neg (fun h => hp' (Or.inr (Or.inr h)))]
          · rw [underscoreOK, if_neg hp', underscoreLoop_zero]
          · intro p' c' t' h
            cases h
            simpa using hp
    · have hpre : basePrefix (c :: s) = (10, c :: s) := by
        unfold basePrefix
        split
        · rename_i h; cases h; exact absurd rfl hc
        · rename_i h; cases h; exact absurd rfl hc
        · rfl
      rw [hpre, underscoreOK_plain hc]
      simp only []
      refine Iff.trans (parse_core bits hbits false 10 (by omega) (c :: s) .start (Or.inl rfl) n) ?_
      constructor
      · rintro ⟨ds, h1, rfl, h3⟩
        exact ⟨.decimal c s ds hc (by simpa using h1), h3⟩
      · rintro ⟨h, h3⟩
        cases h with
        | decimal _ _ ds _ h => exact ⟨ds, by simpa using h, rfl, h3⟩
        | octal => exact absurd rfl hc
        | prefixed => exact absurd rfl hc

/-! ### base given by the caller -/

theorem looseDigits_plain (base : Nat) (hb : base ≤ 16) (s : Bytes) (ds : List Nat) :
    looseDigits false base s = some ds ↔ PlainDigits base s ds := by
  induction s generalizing ds with
  | nil =>
    simp only [looseDigits, PlainDigits]
    constructor
    · intro h; cases h; simp
    · rintro ⟨h, _⟩
      cases ds with
      | nil => rfl
      | cons => simp at h
  | cons c s ih =>
    rw [looseDigits, if_neg (by simp)]
    constructor
    · intro h
      cases hd : digitOf c with
      | none => rw [hd] at h; cases h
      | some d =>
        rw [hd] at h
        simp only [] at h
        by_cases hlt : d ≥ base
        · rw [if_pos hlt] at h; cases h
        · rw [if_neg hlt] at h
          cases hl : looseDigits false base s with
          | none => rw [hl] at h; cases h
          | some ds' =>
            rw [hl] at h
            cases h
            obtain ⟨h1, h2⟩ := (ih ds').1 hl
            refine ⟨?_, ?_⟩
            · simp [h1, (digitOf_small c d (by omega)).1 hd]
            · intro x hx
              rcases List.mem_cons.1 hx with rfl | hx
              · omega
              · exact h2 x hx
    · rintro ⟨h1, h2⟩
      cases ds with
      | nil => simp at h1
      | cons d ds =>
        simp only [List.map_cons, List.cons.injEq] at h1
        have hlt := h2 d List.mem_cons_self
        rw [(digitOf_small c d (by omega)).2 h1.1]
        simp only []
        rw [if_neg (by omega), (ih ds).2 ⟨h1.2, fun x hx => h2 x (List.mem_cons_of_mem _ hx)⟩]
        rfl

theorem parseUintBase_iff (base bits : Nat) (hb1 : 1 ≤ base) (hb : base ≤ 16) (hbits : bits ≤ 64)
    (s : Bytes) (n : Nat) :
    parseUintBase base bits s = some n ↔
      s ≠ [] ∧ ∃ ds, PlainDigits base s ds ∧ n = numeral base ds ∧ n < 2 ^ bits := by
  have hmax : 2 ^ bits - 1 < two64 := by
    have h1 : 2 ^ bits ≤ 2 ^ 64 := Nat.pow_le_pow_right (by decide) hbits
    have h2 : 0 < 2 ^ bits := Nat.pow_pos (by decide)
    show 2 ^ bits - 1 < 2 ^ 64
    omega
  have hpos : 0 < 2 ^ bits := Nat.pow_pos (by decide)
  by_cases hs : s = []
  · rw [parseUintBase, if_pos hs]
    simp [hs]
  · rw [parseUintBase, if_neg hs]
    have hP := parseDigits_eq false base (2 ^ bits - 1) hb1 hb hmax s 0 false (by omega)
    constructor
    · intro h
      cases hp : parseDigits false base (2 ^ bits - 1) s 0 false with
      | none => rw [hp] at h; cases h
      | some p =>
        obtain ⟨r, u⟩ := p
        rw [hp] at h
        cases h
        obtain ⟨ds, h1, h2, h3, _⟩ := (hP n u).1 hp
        exact ⟨hs, ds, (looseDigits_plain base hb s ds).1 h1, h2, by omega⟩
    · rintro ⟨_, ds, h1, h2, h3⟩
      rw [(hP n _).2 ⟨ds, (looseDigits_plain base hb s ds).2 h1, h2, by omega, rfl⟩]

/-! ### printing in decimal -/

theorem digitValue_ofNat (d : Nat) (h : d < 10) : digitValue (UInt8.ofNat (48 + d)) = some d := by
  have : ∀ d : Fin 10, digitValue (UInt8.ofNat (48 + d.val)) = some d.val := by decide
  exact this ⟨d, h⟩

theorem formatLoop_spec (n : Nat) : ∀ (acc : Bytes), ∃ ds : List Nat,
    ds ≠ [] ∧ formatLoop n acc = ds.map (fun d => UInt8.ofNat (48 + d)) ++ acc ∧
    (∀ d ∈ ds, d < 10) ∧ numeral 10 ds = n ∧ (ds.head? = some 0 → n = 0 ∧ ds = [0]) := by
  induction n using Nat.strongRecOn with
  | _ n ih =>
    intro acc
    rw [formatLoop]
    by_cases h : n < 10
    · rw [if_pos h]
      refine ⟨[n], by simp, by simp, by simpa using h, by simp [numeral], ?_⟩
      intro h0
      simp at h0
      exact ⟨h0, by rw [h0]⟩
    · rw [if_neg h]
      obtain ⟨ds, h0, h1, h2, h3, h4⟩ := ih (n / 10) (by omega) (UInt8.ofNat (48 + n % 10) :: acc)
      refine ⟨ds ++ [n % 10], by simp, ?_, ?_, ?_, ?_⟩
      · rw [h1]; simp
      · intro d hd
        rcases List.mem_append.1 hd with hd | hd
        · exact h2 d hd
        · simp at hd; omega
      · unfold numeral at h3 ⊢
        rw [List.foldl_append, h3]
        simp only [List.foldl_cons, List.foldl_nil]
        omega
      · intro h5
        cases ds with
        | nil => exact absurd rfl h0
        | cons d ds =>
          have := (h4 (by simpa using h5)).1
          omega

theorem formatUint_decimal (n : Nat) : DecimalOf n (formatUint n) := by
  obtain ⟨ds, h0, h1, h2, h3, h4⟩ := formatLoop_spec n []
  unfold formatUint
  rw [h1, List.append_nil]
  refine ⟨ds, ⟨?_, h2⟩, h3, by simpa using h0, ?_⟩
  · clear h0 h1 h3 h4
    induction ds with
    | nil => rfl
    | cons d ds ih =>
      simp only [List.map_cons, List.cons.injEq]
      exact ⟨digitValue_ofNat d (h2 d List.mem_cons_self), ih (fun x hx => h2 x (List.mem_cons_of_mem _ hx))⟩
  · intro hh
    cases ds with
    | nil => exact absurd rfl h0
    | cons d ds =>
      simp only [List.map_cons, List.head?_cons, Option.some.injEq] at hh
      have hd := h2 d List.mem_cons_self
      have hz : d = 0 := by
        have h5 := digitValue_ofNat d hd
        rw [hh] at h5
        have h6 : digitValue 48 = some 0 := by decide
        rw [h6] at h5
        cases h5
        rfl
      obtain ⟨h5, h6⟩ := h4 (by simp [hz])
      exact ⟨h5, by rw [h6]; rfl⟩

theorem plain_to_digits (base : Nat) (s : Bytes) (ds : List Nat) (h : PlainDigits base s ds)
    (sep : Bool) : Digits base sep s ds := by
  induction s generalizing ds sep with
  | nil =>
    cases ds with
    | nil => exact .nil _
    | cons => have := h.1; simp at this
  | cons c s ih =>
    cases ds with
    | nil => have := h.1; simp at this
    | cons d ds =>
      obtain ⟨h1, h2⟩ := h
      simp only [List.map_cons, List.cons.injEq] at h1
      exact .digit _ c d s ds h1.1 (h2 d List.mem_cons_self)
        (ih ds ⟨h1.2, fun x hx => h2 x (List.mem_cons_of_mem _ hx)⟩ true)

theorem intLiteral_decimal {n : Nat} {s : Bytes} (h : DecimalOf n s) : IntLiteral s n := by
  obtain ⟨ds, h1, h2, h3, h4⟩ := h
  cases s with
  | nil => exact absurd rfl h3
  | cons c s =>
    by_cases hc : c = 48
    · subst hc
      obtain ⟨h5, h6⟩ := h4 rfl
      cases h6
      rw [h5]
      exact .octal [] [] (.nil _)
    · rw [← h2]
      exact .decimal c s ds hc (plain_to_digits 10 _ ds h1 false)

theorem plainDigits_unique {s : Bytes} {ds ds' : List Nat} (h : PlainDigits 10 s ds) (h' : PlainDigits 10 s ds') :
    ds = ds' := by
  have h1 := h.1.symm.trans h'.1
  exact (List.map_inj_right fun _ _ h => Option.some.inj h).1 h1

theorem formatUint_inj {a b : Nat} (h : formatUint a = formatUint b) : a = b := by
  obtain ⟨ds, h1, h2, _⟩ := formatUint_decimal a
  obtain ⟨ds', h1', h2', _⟩ := formatUint_decimal b
  rw [h] at h1
  rw [← h2, ← h2', plainDigits_unique h1 h1']

theorem formatUint_ne_nil (n : Nat) : formatUint n ≠ [] := by
  obtain ⟨_, _, _, h, _⟩ := formatUint_decimal n
  exact h

theorem readInt_formatUint (n : Nat) (h : n < 2 ^ 64) : readInt (formatUint n) = some n := by
  rw [readInt, parseUint0_iff 64 (Nat.le_refl _)]
  exact ⟨intLiteral_decimal (formatUint_decimal n), h⟩

theorem parseUintBase_formatUint (bits n : Nat) (hb : bits ≤ 64) (h : n < 2 ^ bits) :
    parseUintBase 10 bits (formatUint n) = some n := by
  rw [parseUintBase_iff 10 bits (by decide) (by decide) hb]
  obtain ⟨ds, h1, h2, h3, _⟩ := formatUint_decimal n
  exact ⟨h3, ds, h1, h2.symm, h⟩

end Teal
