import Verif.Model.Why
import Verif.Spec.Why
import Verif.Lemmas.Strconv
import Verif.Lemmas.Literals

/-!
# Lemmas: why a constant cannot be read
-/

namespace Teal

open Spec

theorem digitsWhy_filter (base maxVal : Nat) (s : Bytes) (n : Nat) :
    digitsWhy true base maxVal s n = digitsWhy false base maxVal (s.filter (· ≠ 95)) n := by
  induction s generalizing n with
  | nil => rfl
  | cons c s ih =>
    by_cases hc : c = 95
    · subst hc
      rw [digitsWhy, if_pos ⟨rfl, rfl⟩, ih, List.filter_cons_of_neg (by decide)]
    · rw [List.filter_cons_of_pos (by simpa using hc), digitsWhy, digitsWhy, if_neg (fun h => hc h.1), if_neg (fun h => hc h.1)]
      simp only [ih]

theorem digitsWhy_none (base0 : Bool) (base maxVal : Nat) (s : Bytes) (n : Nat) (us : Bool) :
    digitsWhy base0 base maxVal s n = none ↔ parseDigits base0 base maxVal s n us ≠ none := by
  induction s generalizing n us with
  | nil => simp [digitsWhy, parseDigits]
  | cons c s ih =>
    rw [digitsWhy, parseDigits]
    split
    · exact ih _ _
    · cases digitOf c with
      | none => simp
      | some d =>
        dsimp only
        split
        · simp
        split
        · simp
        split
        · simp
        · exact ih _ _

theorem digitsWhy_range {base maxVal : Nat} (hb1 : 1 ≤ base) (hb2 : base ≤ 16) (hm : maxVal < two64) (s : Bytes) (n : Nat) (hn : n ≤ maxVal) :
    digitsWhy false base maxVal s n = some .range ↔ ∃ p r ds, s = p ++ r ∧ PlainDigits base p ds ∧ maxVal < numeralFrom base n ds := by
  induction s generalizing n with
  | nil =>
    simp only [digitsWhy, reduceCtorEq, false_iff]
    rintro ⟨p, r, ds, h1, h2, h3⟩
    obtain ⟨rfl, -⟩ := List.append_eq_nil_iff.1 h1.symm
    obtain rfl : ds = [] := by simpa using h2.1
    exact absurd h3 (Nat.not_lt.2 hn)
  | cons c s ih =>
    have hstep : ∀ {p r : Bytes} {ds : List Nat}, c :: s = p ++ r → PlainDigits base p ds → maxVal < numeralFrom base n ds →
        ∃ d p' ds', p = c :: p' ∧ ds = d :: ds' ∧ s = p' ++ r ∧ digitValue c = some d ∧ d < base ∧ PlainDigits base p' ds' := by
      intro p r ds h1 h2 h3
      cases p with
      | nil =>
        obtain rfl : ds = [] := by simpa using h2.1.symm
        exact absurd h3 (Nat.not_lt.2 hn)
      | cons x p' =>
        cases ds with
        | nil => simp [PlainDigits] at h2
        | cons d ds' =>
          simp only [List.cons_append, List.cons.injEq] at h1
          obtain ⟨rfl, h1⟩ := h1
          have h4 := h2.1
          simp only [List.map_cons, List.cons.injEq] at h4
          exact ⟨d, p', ds', rfl, rfl, h1, h4.1, h2.2 d (.head _), h4.2, fun x hx => h2.2 x (.tail _ hx)⟩
    rw [digitsWhy, if_neg (by simp)]
    cases hdig : digitOf c with
    | none =>
      simp only [Option.some.injEq, reduceCtorEq, false_iff]
      rintro ⟨p, r, ds, h1, h2, h3⟩
      obtain ⟨d, p', ds', -, -, -, h4, h5, -⟩ := hstep h1 h2 h3
      rw [(digitOf_small c d (by omega)).2 h4] at hdig
      cases hdig
    | some d =>
      dsimp only
      by_cases hd : d ≥ base
      · rw [if_pos hd]
        simp only [Option.some.injEq, reduceCtorEq, false_iff]
        rintro ⟨p, r, ds, h1, h2, h3⟩
        obtain ⟨d', p', ds', -, -, -, h4, h5, -⟩ := hstep h1 h2 h3
        rw [(digitOf_small c d' (by omega)).2 h4] at hdig
        cases hdig
        omega
      · rw [if_neg hd]
        have hv := (digitOf_small c d (by omega)).1 hdig
        have hg := step_guards two64 base maxVal n d hb1 hm (by omega) hb2 (by decide)
        by_cases hbig : n * base + d > maxVal
        · have hl : (if n ≥ (two64 - 1) / base + 1 then some NumWhy.range
                else if (n * base % two64 + d) % two64 < n * base % two64 ∨ (n * base % two64 + d) % two64 > maxVal then some .range
                else digitsWhy false base maxVal s ((n * base % two64 + d) % two64)) = some .range := by
            rcases hg.2 hbig with h | ⟨h, h2⟩
            · rw [if_pos h]
            · rw [if_neg h, if_pos h2]
          rw [hl]
          exact ⟨fun _ => ⟨[c], s, [d], rfl, ⟨by simp [hv], by simpa using Nat.lt_of_not_ge hd⟩, hbig⟩, fun _ => rfl⟩
        · have hno := fun h => hbig (hg.1 h)
          have h1 : ¬ (n ≥ (two64 - 1) / base + 1) := fun h => hno (Or.inl h)
          have hlt : n * base + d < two64 := by omega
          have e1 : (n * base) % two64 = n * base := Nat.mod_eq_of_lt (by omega)
          have e2 : (n * base + d) % two64 = n * base + d := Nat.mod_eq_of_lt hlt
          rw [if_neg h1, e1, e2, if_neg (by omega), ih _ (by omega)]
          constructor
          · rintro ⟨p, r, ds, rfl, h2, h3⟩
            exact ⟨c :: p, r, d :: ds, rfl, ⟨by simp [hv, h2.1], by
              intro x hx
              rcases List.mem_cons.1 hx with rfl | hx
              · exact Nat.lt_of_not_ge hd
              · exact h2.2 x hx⟩, h3⟩
          · rintro ⟨p, r, ds, h1, h2, h3⟩
            obtain ⟨d', p', ds', rfl, rfl, h4, h5, h6, h7⟩ := hstep h1 h2 h3
            rw [hv] at h5
            cases h5
            exact ⟨p', r, ds', h4, h7, h3⟩

theorem digitsWhy_big {base bits : Nat} (hb1 : 1 ≤ base) (hb2 : base ≤ 16) (hbits : bits ≤ 64) (s : Bytes) :
    digitsWhy false base (2 ^ bits - 1) s 0 = some .range ↔ BeginsBig base (2 ^ bits) s := by
  have hpos : 0 < 2 ^ bits := Nat.two_pow_pos bits
  have hle : 2 ^ bits ≤ two64 := Nat.pow_le_pow_right (by decide) hbits
  rw [digitsWhy_range hb1 hb2 (by omega) s 0 (Nat.zero_le _)]
  unfold BeginsBig
  have : ∀ ds, 2 ^ bits - 1 < numeralFrom base 0 ds ↔ 2 ^ bits ≤ numeral base ds := by
    intro ds
    show 2 ^ bits - 1 < numeral base ds ↔ _
    omega
  simp only [this]

/-- One of the two causes, if there is one. -/
theorem numText_says {fn : Bytes} {quote : Bytes → Bytes} {x : Bytes} {o : Option NumWhy} (ho : o ≠ none) {big : Prop} (hb : o = some .range ↔ big) :
    NumberSays fn quote x big (numText fn quote x o) := by
  cases o with
  | none => exact absurd rfl ho
  | some w =>
    cases w with
    | «syntax» => exact .inr ⟨fun h => (by cases hb.2 h), by simp [numText]⟩
    | range => exact .inl ⟨hb.1 rfl, by simp [numText]⟩

theorem uintBaseWhy_none (base bits : Nat) (s : Bytes) : uintBaseWhy base bits s = none ↔ parseUintBase base bits s ≠ none := by
  unfold uintBaseWhy parseUintBase
  split
  · simp
  · rw [digitsWhy_none _ _ _ _ _ false]
    cases parseDigits false base (2 ^ bits - 1) s 0 false <;> simp

theorem begins_nil (base limit : Nat) (hl : 0 < limit) : ¬ BeginsBig base limit [] := by
  rintro ⟨p, r, ds, h1, h2, h3⟩
  obtain ⟨rfl, -⟩ := List.append_eq_nil_iff.1 h1.symm
  obtain rfl : ds = [] := by simpa using h2.1
  exact absurd h3 (Nat.not_le.2 hl)

theorem uintBaseWhy_range {base bits : Nat} (hb1 : 1 ≤ base) (hb2 : base ≤ 16) (hbits : bits ≤ 64) (s : Bytes) :
    uintBaseWhy base bits s = some .range ↔ BeginsBig base (2 ^ bits) s := by
  unfold uintBaseWhy
  split
  · rename_i h
    subst h
    simp only [Option.some.injEq, reduceCtorEq, false_iff]
    exact begins_nil _ _ (Nat.two_pow_pos _)
  · exact digitsWhy_big hb1 hb2 hbits s

theorem body_prefix {s : Bytes} (hs : s ≠ []) : NumberBody s (basePrefix s).1 (basePrefix s).2 := by
  match s, hs with
  | c :: t, _ =>
    by_cases hc : c = 48
    · subst hc
      match t with
      | [] => exact .octal [] (by intro p c t base h; cases h)
      | [d] => exact .octal [d] (by intro p c t base h; cases h)
      | d :: x :: t =>
        obtain ⟨h1, h2, h3⟩ := lower_letter d
        simp only [basePrefix]
        split
        · rename_i h
          exact .prefixed 2 d x t (.inl ⟨rfl, h1.1 h⟩)
        split
        · rename_i h
          exact .prefixed 8 d x t (.inr (.inl ⟨rfl, h2.1 h⟩))
        split
        · rename_i h
          exact .prefixed 16 d x t (.inr (.inr ⟨rfl, h3.1 h⟩))
        · rename_i n1 n2 n3
          refine .octal _ ?_
          rintro p c t' base h (⟨-, h'⟩ | ⟨-, h'⟩ | ⟨-, h'⟩) <;> cases h
          · exact n1 (h1.2 h')
          · exact n2 (h2.2 h')
          · exact n3 (h3.2 h')
    · have : basePrefix (c :: t) = (10, c :: t) := by
        unfold basePrefix
        split
        · rename_i h; cases h; exact absurd rfl hc
        · rename_i h; cases h; exact absurd rfl hc
        · rfl
      rw [this]
      exact .decimal c t hc

theorem body_unique {s b b' : Bytes} {n n' : Nat} (h : NumberBody s n b) (h' : NumberBody s n' b') : n = n' ∧ b = b' := by
  have letters : ∀ {p : UInt8} {m m' : Nat}, baseLetter p m → baseLetter p m' → m = m' := by
    rintro p m m' (⟨rfl, h⟩ | ⟨rfl, h⟩ | ⟨rfl, h⟩) (⟨rfl, h'⟩ | ⟨rfl, h'⟩ | ⟨rfl, h'⟩) <;>
      first | rfl | (rcases h with rfl | rfl <;> rcases h' with h' | h' <;> simp at h')
  cases h with
  | decimal c s hc =>
    cases h' with
    | decimal _ _ _ => exact ⟨rfl, rfl⟩
    | octal _ _ => exact absurd rfl hc
    | prefixed _ _ _ _ _ => exact absurd rfl hc
  | octal s hs =>
    cases h' with
    | decimal _ _ hc => exact absurd rfl hc
    | octal _ _ => exact ⟨rfl, rfl⟩
    | prefixed _ _ _ _ hp => exact absurd hp (hs _ _ _ _ rfl)
  | prefixed base p c s hp =>
    cases h' with
    | decimal _ _ hc => exact absurd rfl hc
    | octal _ hs => exact absurd hp (hs _ _ _ _ rfl)
    | prefixed _ _ _ _ hp' => exact ⟨letters hp hp', rfl⟩

theorem body_base {s b : Bytes} {n : Nat} (h : NumberBody s n b) : 1 ≤ n ∧ n ≤ 16 := by
  cases h with
  | decimal => decide
  | octal => decide
  | prefixed _ _ _ _ hp => rcases hp with ⟨rfl, -⟩ | ⟨rfl, -⟩ | ⟨rfl, -⟩ <;> decide

theorem uint0Why_range (s : Bytes) : uint0Why 64 s = some .range ↔ BeginsHuge s := by
  unfold uint0Why
  split
  · rename_i h
    subst h
    simp only [Option.some.injEq, reduceCtorEq, false_iff]
    rintro ⟨base, body, h, -⟩
    cases h
  · rename_i hs
    have hb := body_prefix hs
    dsimp only
    rw [digitsWhy_filter]
    have hr := digitsWhy_big (body_base hb).1 (body_base hb).2 (Nat.le_refl 64) ((basePrefix s).2.filter (· ≠ 95))
    have hh : BeginsHuge s ↔ BeginsBig (basePrefix s).1 (2 ^ 64) ((basePrefix s).2.filter (· ≠ 95)) := by
      constructor
      · rintro ⟨base, body, h1, h2⟩
        obtain ⟨rfl, rfl⟩ := body_unique h1 hb
        exact h2
      · exact fun h => ⟨_, _, hb, h⟩
    rw [hh, ← hr]
    cases digitsWhy false (basePrefix s).1 (2 ^ 64 - 1) ((basePrefix s).2.filter (· ≠ 95)) 0 with
    | some w => simp
    | none => dsimp only; split <;> simp

theorem uint0Why_none (s : Bytes) (h : parseUint0 64 s = none) : uint0Why 64 s ≠ none := by
  unfold uint0Why
  unfold parseUint0 at h
  split at h
  · rename_i hs; rw [if_pos hs]; simp
  · rename_i hs
    rw [if_neg hs]
    dsimp only at h ⊢
    have hb := body_base (body_prefix hs)
    cases hd : digitsWhy true (basePrefix s).1 (2 ^ 64 - 1) (basePrefix s).2 0 with
    | some w => simp
    | none =>
      have hp := (digitsWhy_none _ _ _ _ _ false).1 hd
      cases hq : parseDigits true (basePrefix s).1 (2 ^ 64 - 1) (basePrefix s).2 0 false with
      | none => exact absurd hq hp
      | some r =>
        obtain ⟨n, us⟩ := r
        rw [hq] at h
        dsimp only at h ⊢
        obtain ⟨ds, h1, h2, h3, h4⟩ := (parseDigits_eq true _ _ hb.1 hb.2 (by decide) _ 0 false (Nat.zero_le _) n us).1 hq
        simp only [Bool.false_or, Bool.true_and] at h4
        rw [← h4]
        split at h
        · rename_i hu; rw [if_pos hu]; simp
        · cases h

theorem begins_digit {limit : Nat} (hl : 0 < limit) {c : UInt8} {t : Bytes} (h : BeginsBig 10 limit (c :: t)) : c ≠ 43 ∧ c ≠ 45 := by
  obtain ⟨p, r, ds, h1, h2, h3⟩ := h
  cases p with
  | nil =>
    obtain rfl : ds = [] := by simpa using h2.1.symm
    exact absurd h3 (Nat.not_le.2 hl)
  | cons x p =>
    simp only [List.cons_append, List.cons.injEq] at h1
    obtain ⟨rfl, -⟩ := h1
    cases ds with
    | nil => simp [PlainDigits] at h2
    | cons d ds =>
      have h4 := h2.1
      simp only [List.map_cons, List.cons.injEq] at h4
      constructor <;> rintro rfl <;> exact absurd h4.1 (by rw [show digitValue _ = none by decide]; simp)

theorem signed_parts {s : Bytes} {i : Int} (h : SignedDecimal s i) : ∃ digits ds, digits ≠ [] ∧ PlainDigits 10 digits ds ∧
    ∃ c t, s = c :: t ∧ digits = (if c = 43 ∨ c = 45 then t else s) ∧ i = if c = 45 then - (numeral 10 ds : Int) else numeral 10 ds := by
  obtain ⟨digits, ds, h1, h2, h3⟩ := h
  refine ⟨digits, ds, h1, h2, ?_⟩
  rcases h3 with ⟨rfl, rfl⟩ | ⟨rfl, rfl⟩ | ⟨rfl, rfl⟩
  · cases s with
    | nil => exact absurd rfl h1
    | cons c t =>
      have hc : c ≠ 43 ∧ c ≠ 45 := by
        cases ds with
        | nil => simp [PlainDigits] at h2
        | cons d ds =>
          have h4 := h2.1
          simp only [List.map_cons, List.cons.injEq] at h4
          constructor <;> rintro rfl <;> exact absurd h4.1 (by rw [show digitValue _ = none by decide]; simp)
      exact ⟨c, t, rfl, by rw [if_neg (by simp [hc.1, hc.2])], by rw [if_neg hc.2]⟩
  · exact ⟨43, digits, rfl, by simp, by simp⟩
  · exact ⟨45, digits, rfl, by simp, by simp⟩

theorem signed_of_parts {c : UInt8} {t : Bytes} {ds : List Nat} (h0 : (if c = 43 ∨ c = 45 then t else c :: t) ≠ [])
    (h : PlainDigits 10 (if c = 43 ∨ c = 45 then t else c :: t) ds) :
    SignedDecimal (c :: t) (if c = 45 then - (numeral 10 ds : Int) else numeral 10 ds) := by
  refine ⟨_, ds, h0, h, ?_⟩
  by_cases h1 : c = 43
  · subst h1; exact .inr (.inl ⟨by simp, by simp⟩)
  by_cases h2 : c = 45
  · subst h2; exact .inr (.inr ⟨by simp, by simp⟩)
  · refine .inl ⟨by simp [h1, h2], by simp [h2]⟩

theorem intBaseWhy_range (s : Bytes) : intBaseWhy 10 8 s = some .range ↔ BeginsFar s := by
  cases s with
  | nil =>
    simp only [intBaseWhy, Option.some.injEq, reduceCtorEq, false_iff]
    rintro (⟨a, y, h1, -, h2⟩ | ⟨i, h1, -⟩)
    · obtain ⟨-, rfl⟩ := List.append_eq_nil_iff.1 h1.symm
      exact begins_nil _ _ (by decide) h2
    · obtain ⟨_, _, _, _, _, _, h, _⟩ := signed_parts h1
      cases h
  | cons c t =>
    unfold intBaseWhy
    dsimp only
    generalize hd : (if c = 43 ∨ c = 45 then t else c :: t) = digits
    have hr := uintBaseWhy_range (base := 10) (bits := 8) (by decide) (by decide) (by decide) digits
    -- the first half of the claim
    have hleft : (∃ a y, c :: t = a ++ y ∧ (a = [] ∨ a = b!"+" ∨ a = b!"-") ∧ BeginsBig 10 256 y) ↔ BeginsBig 10 256 digits := by
      constructor
      · rintro ⟨a, y, h1, rfl | rfl | rfl, h3⟩
        · obtain rfl : y = c :: t := h1.symm
          have := begins_digit (by decide) h3
          rw [if_neg (by simp [this.1, this.2])] at hd
          rwa [← hd]
        · obtain ⟨rfl, rfl⟩ := List.cons.inj h1
          rw [if_pos (.inl rfl)] at hd
          rwa [← hd]
        · obtain ⟨rfl, rfl⟩ := List.cons.inj h1
          rw [if_pos (.inr rfl)] at hd
          rwa [← hd]
      · intro h
        by_cases h1 : c = 43
        · subst h1; rw [if_pos (.inl rfl)] at hd; subst hd; exact ⟨b!"+", t, rfl, .inr (.inl rfl), h⟩
        by_cases h2 : c = 45
        · subst h2; rw [if_pos (.inr rfl)] at hd; subst hd; exact ⟨b!"-", t, rfl, .inr (.inr rfl), h⟩
        · rw [if_neg (by simp [h1, h2])] at hd; subst hd; exact ⟨[], c :: t, rfl, .inl rfl, h⟩
    unfold BeginsFar
    rw [hleft, show (256 : Nat) = 2 ^ 8 from rfl, ← hr]
    have hp := parseUintBase_iff 10 8 (by decide) (by decide) (by decide) digits
    -- a number that is out of range
    have hfar : (∃ i, SignedDecimal (c :: t) i ∧ ¬ (-128 ≤ i ∧ i ≤ 127)) →
        ∃ ds, digits ≠ [] ∧ PlainDigits 10 digits ds ∧ (¬ c = 45 ∧ numeral 10 ds ≥ 128 ∨ c = 45 ∧ numeral 10 ds > 128) := by
      rintro ⟨i, h1, h2⟩
      obtain ⟨digits', ds, h3, h4, c', t', h5, h6, h7⟩ := signed_parts h1
      cases h5
      rw [hd] at h6
      subst h6
      refine ⟨ds, h3, h4, ?_⟩
      by_cases hc : c = 45
      · rw [if_pos hc] at h7
        exact .inr ⟨hc, by omega⟩
      · rw [if_neg hc] at h7
        exact .inl ⟨hc, by omega⟩
    cases hw : uintBaseWhy 10 8 digits with
    | some w =>
      simp only [Option.some.injEq]
      constructor
      · exact .inl
      · rintro (h | h)
        · exact h
        · obtain ⟨ds, h1, h2, h3⟩ := hfar h
          have hnone : parseUintBase 10 8 digits = none := by
            cases hq : parseUintBase 10 8 digits with
            | none => rfl
            | some n =>
              have := (uintBaseWhy_none 10 8 digits).2 (by rw [hq]; simp)
              rw [hw] at this
              cases this
          have hbig : BeginsBig 10 (2 ^ 8) digits := by
            refine ⟨digits, [], ds, by simp, h2, ?_⟩
            refine Nat.le_of_not_lt fun hlt => ?_
            have := (hp _).2 ⟨h1, ds, h2, rfl, hlt⟩
            rw [hnone] at this
            cases this
          have := hr.2 hbig
          rw [hw] at this
          exact Option.some.inj this
    | none =>
      have hs := (uintBaseWhy_none 10 8 digits).1 hw
      cases hq : parseUintBase 10 8 digits with
      | none => exact absurd hq hs
      | some un =>
        obtain ⟨h1, ds, h2, h3, h4⟩ := (hp un).1 hq
        simp only [reduceCtorEq, false_or]
        have hsig := signed_of_parts (c := c) (t := t) (ds := ds) (by rw [hd]; exact h1) (by rw [hd]; exact h2)
        constructor
        · intro h
          refine ⟨_, hsig, ?_⟩
          by_cases hc : c = 45
          · subst hc
            simp only [not_true_eq_false, false_and, if_false, true_and] at h
            split at h
            · rw [if_pos rfl]; omega
            · cases h
          · simp only [hc, not_false_eq_true, true_and, false_and, if_false] at h
            split at h
            · rw [if_neg hc]; omega
            · cases h
        · intro h
          obtain ⟨ds', h5, h6, h7⟩ := hfar h
          have hdd : ds' = ds := by
            have := h6.1.symm.trans h2.1
            exact (List.map_inj_right (fun _ _ h => Option.some.inj h)).1 this
          subst hdd
          rcases h7 with ⟨hc, h7⟩ | ⟨hc, h7⟩
          · rw [if_pos ⟨hc, by omega⟩]
          · rw [if_neg (by simp [hc]), if_pos ⟨hc, by omega⟩]

theorem intBaseWhy_none (s : Bytes) (h : parseIntBase 10 8 s = none) : intBaseWhy 10 8 s ≠ none := by
  cases s with
  | nil => simp [intBaseWhy]
  | cons c t =>
    unfold intBaseWhy
    unfold parseIntBase at h
    dsimp only at h ⊢
    generalize (if c = 43 ∨ c = 45 then t else c :: t) = digits at h ⊢
    cases hw : uintBaseWhy 10 8 digits with
    | some w => simp
    | none =>
      have hs := (uintBaseWhy_none 10 8 digits).1 hw
      cases hq : parseUintBase 10 8 digits with
      | none => exact absurd hq hs
      | some un =>
        rw [hq] at h
        dsimp only at h ⊢
        split at h
        · rename_i h1; rw [if_pos h1]; simp
        · rename_i h1
          rw [if_neg h1]
          split at h
          · rename_i h2; rw [if_pos h2]; simp
          · cases h

/-! ### hex -/

theorem byteShown (c : UInt8) : ∃ m, ByteShown c m ∧ invalidByte c = b!"encoding/hex: invalid byte: " ++ m := by
  refine ⟨b!"U+00" ++ [upperHex (c.toNat / 16), upperHex (c.toNat % 16)] ++ (if latinPrint c then b!" '" ++ byteRune c ++ b!"'" else []),
    ⟨upperHex (c.toNat / 16), upperHex (c.toNat % 16), ?_, ?_, ?_, ?_, ?_⟩, rfl⟩
  · revert c; apply forall_byte; decide +kernel
  · revert c; apply forall_byte; decide +kernel
  · revert c; apply forall_byte; decide +kernel
  · revert c; apply forall_byte; decide +kernel
  · intro _
    exact ⟨_, rfl⟩

theorem hexVal_digit (c : UInt8) : hexVal c = digitValue c := by
  revert c; apply forall_byte; decide +kernel

theorem hexWhy_says : ∀ (n : Nat) (s : Bytes), s.length ≤ n → ∀ m, hexWhy s = some m → HexSays s m
  | n, [], _, m, h => by cases h
  | n, [c], _, m, h => by
    rw [hexWhy, hexVal_digit] at h
    split at h
    · rename_i hc
      obtain ⟨m', h1, h2⟩ := byteShown c
      cases h
      rw [h2]
      exact .byte [] c [] m' (by simp) hc h1
    · rename_i hc
      cases h
      exact .odd [c] (by simpa [Option.isSome_iff_ne_none] using hc) rfl
  | 0, p :: q :: s, hn, m, h => by simp at hn
  | n + 1, p :: q :: s, hn, m, h => by
    rw [hexWhy, hexVal_digit, hexVal_digit] at h
    split at h
    · rename_i hc
      obtain ⟨m', h1, h2⟩ := byteShown p
      cases h
      rw [h2]
      exact .byte [] p (q :: s) m' (by simp) hc h1
    · rename_i hp
      split at h
      · rename_i hc
        obtain ⟨m', h1, h2⟩ := byteShown q
        cases h
        rw [h2]
        exact .byte [p] q s m' (by simpa [Option.isSome_iff_ne_none] using hp) hc h1
      · rename_i hq
        simp only [List.length_cons] at hn
        have ih := hexWhy_says n s (by omega) m h
        have hpq : ∀ x ∈ [p, q], (digitValue x).isSome := by
          intro x hx
          simp only [List.mem_cons, List.not_mem_nil, or_false] at hx
          rcases hx with rfl | rfl <;> rw [Option.isSome_iff_ne_none] <;> assumption
        cases ih with
        | byte good c t m' hg hc hm =>
          refine .byte (p :: q :: good) c t m' ?_ hc hm
          intro x hx
          rcases List.mem_cons.1 hx with rfl | hx
          · exact hpq _ (.head _)
          rcases List.mem_cons.1 hx with rfl | hx
          · exact hpq _ (.tail _ (.head _))
          · exact hg x hx
        | odd _ hs hl =>
          refine .odd _ ?_ (by simp only [List.length_cons]; omega)
          intro x hx
          rcases List.mem_cons.1 hx with rfl | hx
          · exact hpq _ (.head _)
          rcases List.mem_cons.1 hx with rfl | hx
          · exact hpq _ (.tail _ (.head _))
          · exact hs x hx

theorem hexWhy_none (s : Bytes) (h : hexDecode s = none) : hexWhy s ≠ none := by
  induction s using hexDecode.induct with
  | case1 => cases h
  | case2 c => rw [hexWhy]; split <;> simp
  | case3 p q s a b ha hb ih =>
    rw [hexDecode, ha, hb] at h
    rw [hexWhy, ha, hb, if_neg (by simp), if_neg (by simp)]
    exact ih (by simpa using h)
  | case4 p q s hx =>
    rw [hexWhy]
    split
    · simp
    split
    · simp
    · rename_i h1 h2
      obtain ⟨a, ha⟩ := Option.ne_none_iff_exists'.1 h1
      obtain ⟨b, hb⟩ := Option.ne_none_iff_exists'.1 h2
      exact absurd hb (hx a b ha)

/-! ### string literals -/

theorem stringWhy_none {quote : Bytes → Bytes} {s : Bytes} {esc hex : Bool} (h : stringLoop s esc hex = none) : stringWhy quote s esc hex ≠ none := by
  induction hn : s.length using Nat.strongRecOn generalizing s esc hex with
  | _ n ih =>
  match s with
  | [] =>
    rw [stringLoop] at h
    rw [stringWhy]
    split at h
    · rename_i h'; rw [if_pos h']; simp
    · cases h
  | c :: s =>
    simp only [List.length_cons] at hn
    rw [stringLoop] at h
    rw [stringWhy]
    split at h
    · rename_i h'
      rw [if_pos h']
      split at h
      · rename_i h2; rw [if_pos h2]; simp
      · rename_i h2; rw [if_neg h2]; exact ih _ (by omega) h rfl
    · rename_i h'
      rw [if_neg h']
      dsimp only at h ⊢
      generalize (if esc = true then if c = 120 then some none else (simpleEscape c).map some else some (some c)) = escaped at h ⊢
      match escaped with
      | none => simp
      | some none => exact ih _ (by omega) h rfl
      | some (some ch) =>
        dsimp only at h ⊢
        split at h
        · rename_i h2
          rw [if_pos h2]
          match s with
          | [] => simp
          | d :: s =>
            simp only [List.length_cons] at hn
            dsimp only at h ⊢
            cases hw : uintBaseWhy 16 8 [ch, d] with
            | some w => simp
            | none =>
              have := (uintBaseWhy_none 16 8 [ch, d]).1 hw
              cases hq : parseUintBase 16 8 [ch, d] with
              | none => exact absurd hq this
              | some num =>
                rw [hq] at h
                exact ih _ (by omega) (by simpa using h) rfl
        · rename_i h2
          rw [if_neg h2]
          exact ih _ (by omega) (by simpa using h) rfl

theorem stringWhy_says {quote : Bytes → Bytes} : ∀ (n : Nat) (s : Bytes), s.length ≤ n → ∀ m, stringWhy quote s false false = some m → LiteralSays quote s m := by
  intro n
  induction n with
  | zero =>
    intro s hn m h
    obtain rfl := List.length_eq_zero_iff.1 (Nat.le_zero.1 hn)
    rw [stringWhy] at h
    simp at h
  | succ n ih =>
    intro s hn m h
    match s with
    | [] => rw [stringWhy] at h; simp at h
    | c :: s =>
      simp only [List.length_cons] at hn
      rw [stringWhy] at h
      by_cases hc : c = 92
      · subst hc
        rw [if_pos (by simp [chBackslash])] at h
        simp only [Bool.false_eq_true, if_false] at h
        match s with
        | [] =>
          rw [stringWhy] at h
          simp only [Bool.true_or, if_true] at h
          cases h
          exact ⟨[], [], _, rfl, .nil, .backslash⟩
        | d :: s =>
          simp only [List.length_cons] at hn
          rw [stringWhy, if_neg (by simp)] at h
          by_cases hd : d = 120
          · subst hd
            simp only [if_true] at h
            match s with
            | [] =>
              rw [stringWhy] at h
              simp only [Bool.or_true, if_true] at h
              cases h
              exact ⟨[], [], _, rfl, .nil, .x⟩
            | p :: s =>
              simp only [List.length_cons] at hn
              rw [stringWhy] at h
              by_cases hp : p = 92
              · rw [if_pos (by simp [chBackslash, hp])] at h
                simp only [if_true] at h
                cases h
                subst hp
                exact ⟨[], [], _, rfl, .nil, .escape s⟩
              · rw [if_neg (by simp [chBackslash, hp])] at h
                match s with
                | [] =>
                  simp only [Bool.false_eq_true, if_false, if_true] at h
                  cases h
                  exact ⟨[], [], _, rfl, .nil, .one p hp⟩
                | q :: s =>
                  simp only [List.length_cons] at hn
                  simp only [Bool.false_eq_true, if_false, if_true] at h
                  cases hw : uintBaseWhy 16 8 [p, q] with
                  | some w =>
                    rw [hw] at h
                    dsimp only at h
                    cases h
                    have hnone : parseUintBase 16 8 [p, q] = none := by
                      cases hq : parseUintBase 16 8 [p, q] with
                      | none => rfl
                      | some n =>
                        have := (uintBaseWhy_none 16 8 [p, q]).2 (by rw [hq]; simp)
                        rw [hw] at this
                        cases this
                    have hdig : digitValue p = none ∨ digitValue q = none := by
                      cases ha : digitValue p with
                      | none => exact .inl rfl
                      | some a =>
                        cases hb : digitValue q with
                        | none => exact .inr rfl
                        | some b =>
                          have := (parse_two_hex p q _).2 ⟨a, b, ha, hb, rfl⟩
                          rw [hnone] at this
                          cases this
                    have hsyn : w = .syntax := by
                      cases w with
                      | «syntax» => rfl
                      | range =>
                        exfalso
                        obtain ⟨x, r, ds, h1, h2, h3⟩ := (uintBaseWhy_range (by decide) (by decide) (by decide) _).1 hw
                        have hlt : ∀ y z : Nat, y < 16 → z < 16 → y * 16 + z < 256 := by intros; omega
                        match x, ds with
                        | [], [] => exact absurd h3 (by decide)
                        | [], d :: ds => simp [PlainDigits] at h2
                        | [y], [] => simp [PlainDigits] at h2
                        | [y], [d] =>
                          have := h2.2 d (.head _)
                          simp [numeral] at h3
                          omega
                        | [y], d :: e :: ds => simp [PlainDigits] at h2
                        | y :: z :: x, ds =>
                          simp only [List.cons_append, List.cons.injEq] at h1
                          obtain ⟨rfl, rfl, h1⟩ := h1
                          have h4 := h2.1
                          rcases hdig with h | h
                          · cases ds with
                            | nil => simp at h4
                            | cons d ds => simp [h] at h4
                          · match ds with
                            | [] => simp at h4
                            | [d] => simp at h4
                            | d :: e :: ds => simp [h] at h4
                    subst hsyn
                    refine ⟨[], [], _, rfl, .nil, ?_⟩
                    have ht : numText b!"ParseUint" quote [p, q] (some .syntax) = b!"strconv.ParseUint: parsing " ++ quote [p, q] ++ b!": invalid syntax" := by
                      simp [numText]
                    rw [ht]
                    exact .digits p q s hp hdig
                  | none =>
                    rw [hw] at h
                    dsimp only at h
                    obtain ⟨good, bs, bad, rfl, h2, h3⟩ := ih s (by omega) m h
                    cases hq : parseUintBase 16 8 [p, q] with
                    | none => exact absurd hq ((uintBaseWhy_none 16 8 [p, q]).1 hw)
                    | some num =>
                      obtain ⟨a, b, ha, hb, rfl⟩ := (parse_two_hex p q num).1 hq
                      exact ⟨92 :: 120 :: p :: q :: good, _, bad, rfl, .hex p q a b good bs ha hb h2, h3⟩
          · simp only [if_true, if_neg hd] at h
            cases he : simpleEscape d with
            | none =>
              rw [he] at h
              simp only [Option.map_none] at h
              cases h
              refine ⟨[], [], _, rfl, .nil, ?_⟩
              by_cases ha : d < 128
              · have : byteRune d = [d] := by unfold byteRune; rw [if_pos ha]
                rw [this]
                refine .letter d s ?_ hd ha
                intro v hv
                rw [(simpleEscape_iff d v).2 hv] at he
                cases he
              · exact .other d s _ (by simpa using ha)
            | some v =>
              rw [he] at h
              simp only [Option.map_some, Bool.false_eq_true, if_false] at h
              obtain ⟨good, bs, bad, rfl, h2, h3⟩ := ih s (by omega) m h
              exact ⟨92 :: d :: good, _, bad, rfl, .escape d v good bs ((simpleEscape_iff d v).1 he) h2, h3⟩
      · rw [if_neg (by simp [chBackslash, hc])] at h
        simp only [Bool.false_eq_true, if_false] at h
        obtain ⟨good, bs, bad, rfl, h2, h3⟩ := ih s (by omega) m h
        exact ⟨c :: good, _, bad, rfl, .plain c good bs hc h2, h3⟩

end Teal
