import Verif.Model.LangSpec
import Verif.Lemmas.Utf8

/-! # Notes on immediates: helper lemmas -/

namespace Teal.Imm

/-- Neither a slice out of range nor an endless loop. -/
def Fine {α : Type} (P : α → Prop) : Res α → Prop
  | .ok a => P a
  | .err => True
  | .panic => False
  | .hang => False

theorem Fine.bind {α β : Type} {P : α → Prop} {Q : β → Prop} {x : Res α} {f : α → Res β} (h : Fine P x)
    (hf : ∀ a, P a → Fine Q (f a)) : Fine Q (x.bind f) := by
  cases x with
  | ok a => exact hf a h
  | err => trivial
  | panic => exact h
  | hang => exact h

theorem Fine.mono {α : Type} {P Q : α → Prop} {x : Res α} (h : Fine P x) (hf : ∀ a, P a → Q a) : Fine Q x := by
  cases x with
  | ok a => exact hf a h
  | err => trivial
  | panic => exact h
  | hang => exact h

theorem fine_sliceFrom {s : Bytes} {i : Nat} (h : i ≤ s.length) : Fine (fun t => t = s.drop i) (sliceFrom s i) := by
  rw [sliceFrom, if_pos h]; rfl

theorem fine_slice {s : Bytes} {i j : Nat} (h : i ≤ j) (hj : j ≤ s.length) : Fine (fun t => t = (s.take j).drop i) (slice s i j) := by
  rw [slice, if_pos ⟨h, hj⟩]; rfl

theorem takeWhile_full (p : UInt8 → Bool) (l : Bytes) : (l.takeWhile p).length = l.length ↔ ∀ x ∈ l, p x = true := by
  induction l with
  | nil => simp
  | cons a l ih =>
    by_cases h : p a = true
    · rw [List.takeWhile_cons_of_pos h]; simp [h, ih]
    · rw [List.takeWhile_cons_of_neg h]; simp [h]

/-- Looking for a closing character below 128. -/
theorem scanTo_eq (close : UInt8) (hc : close.toNat < 128) (s : Bytes) : ∀ k i, i ≤ s.length → s.length - i < k →
    scanTo close.toNat s k i = if close ∈ s.drop i then .ok (i + ((s.drop i).takeWhile (· != close)).length, 1) else .err := by
  intro k
  induction k with
  | zero => intro i _ h; omega
  | succ k ih =>
    intro i hi hk
    rw [scanTo]
    by_cases he : i = s.length
    · rw [if_pos he, he, List.drop_length]; simp
    rw [if_neg he, sliceFrom, if_pos hi]
    show (if _ then _ else _) = _
    cases hd : s.drop i with
    | nil =>
      have := congrArg List.length hd
      simp at this
      omega
    | cons c t =>
      have hlen : t.length + 1 = s.length - i := by
        have := congrArg List.length hd
        simp at this
        omega
      by_cases hcc : c = close
      · subst hcc
        rw [decodeRune_ascii c t hc]
        simp
      · have hne : c.toNat ≠ close.toNat := fun e => hcc (UInt8.toNat_inj.1 e)
        rw [if_neg (fun e => hne ((decodeRune_eq_iff c t close.toNat hc).1 e))]
        have h1 := decodeRune_width_pos c t
        have h2 := decodeRune_width_le c t
        rw [ih (i + (decodeRune (c :: t)).2) (by omega) (by omega)]
        have htw := takeWhile_rune (fun x => x != close) (fun x hx => by
          simp only [bne_iff_ne, ne_eq]
          rintro rfl
          omega) c t (by simpa using hcc)
        have hdrop : s.drop (i + (decodeRune (c :: t)).2) = (c :: t).drop (decodeRune (c :: t)).2 := by
          rw [← List.drop_drop, hd]
        rw [hdrop]
        have hmem : close ∈ (c :: t).drop (decodeRune (c :: t)).2 ↔ close ∈ c :: t := by
          constructor
          · exact fun h => List.mem_of_mem_drop h
          · intro h
            refine Classical.byContradiction fun hn => ?_
            have hall : ∀ x ∈ ((c :: t).drop (decodeRune (c :: t)).2), (x != close) = true := by
              intro x hx
              simp only [bne_iff_ne, ne_eq]
              rintro rfl
              exact hn hx
            rw [(takeWhile_full _ _).2 hall, List.length_drop, List.length_cons] at htw
            have := (takeWhile_full (fun x => x != close) (c :: t)).1 (by rw [htw, List.length_cons]; omega) close h
            simp at this
        by_cases hm : close ∈ c :: t
        · rw [if_pos (hmem.2 hm), if_pos hm, htw]
          congr 1
          simp only [Prod.mk.injEq, and_true]
          omega
        · rw [if_neg (fun e => hm (hmem.1 e)), if_neg hm]

theorem fine_scanTo {close : UInt8} (hc : close.toNat < 128) {s : Bytes} {i : Nat} (hi : i ≤ s.length) :
    Fine (fun x => i ≤ x.1 ∧ x.1 < s.length ∧ x.2 = 1) (scanTo close.toNat s (s.length + 1) i) := by
  rw [scanTo_eq close hc s _ i hi (by omega)]
  split
  · rename_i h
    refine ⟨Nat.le_add_right _ _, ?_, rfl⟩
    show i + _ < s.length
    have : ((s.drop i).takeWhile (· != close)).length < (s.drop i).length := by
      rcases Nat.lt_or_ge ((s.drop i).takeWhile (· != close)).length (s.drop i).length with h1 | h1
      · exact h1
      · have hle := (List.takeWhile_prefix (l := s.drop i) (· != close)).length_le
        have := (takeWhile_full (· != close) _).1 (Nat.le_antisymm hle h1) close h
        simp at this
    rw [List.length_drop] at this
    omega
  · trivial

/-- Skipping blanks. -/
theorem skipLoop_eq (s : Bytes) : ∀ k i, i ≤ s.length → s.length - i < k →
    skipLoop s k i = .ok (i + ((s.drop i).takeWhile (· == 32)).length) := by
  intro k
  induction k with
  | zero => intro i _ h; omega
  | succ k ih =>
    intro i hi hk
    rw [skipLoop, sliceFrom, if_pos hi]
    show (if _ then _ else _) = _
    cases hd : s.drop i with
    | nil => simp [decodeRune, runeError]
    | cons c t =>
      have hlen : t.length + 1 = s.length - i := by
        have := congrArg List.length hd
        simp at this
        omega
      by_cases hcc : c = 32
      · subst hcc
        rw [decodeRune_ascii 32 t (by decide), if_pos (by decide), ih (i + 1) (by omega) (by omega), ← List.drop_drop, hd]
        simp
        omega
      · rw [if_neg (fun e => hcc (UInt8.toNat_inj.1 ((decodeRune_eq_iff c t 32 (by decide)).1 e)))]
        simp [hcc]

theorem skipWhitespace_eq (s : Bytes) : skipWhitespace s = .ok (s.takeWhile (· == 32)).length := by
  unfold skipWhitespace
  split
  · rw [skipLoop_eq s _ 0 (by omega) (by omega)]; simp
  · rename_i h
    rw [List.length_eq_zero_iff.1 (by omega : s.length = 0)]; rfl

theorem takeWhile_le (p : UInt8 → Bool) (s : Bytes) : (s.takeWhile p).length ≤ s.length := (List.takeWhile_prefix p).length_le

theorem fine_skip (s : Bytes) : Fine (fun j => j ≤ s.length) (skipWhitespace s) := by
  rw [skipWhitespace_eq]
  exact takeWhile_le _ s

theorem fine_var (s : Bytes) : ∀ k i, i ≤ s.length → s.length - i < k → Fine (fun x : Arg × Nat => i < x.2 ∧ x.2 ≤ s.length) (varLoop s k i) := by
  intro k
  induction k with
  | zero => intro i _ h; omega
  | succ k ih =>
    intro i hi hk
    rw [varLoop]
    split
    · trivial
    rename_i hne
    refine (fine_sliceFrom hi).bind fun t ht => ?_
    subst ht
    cases hd : s.drop i with
    | nil =>
      have := congrArg List.length hd
      simp at this
      omega
    | cons c t =>
      have hlen : t.length + 1 = s.length - i := by
        have := congrArg List.length hd
        simp at this
        omega
      have h1 := decodeRune_width_pos c t
      have h2 := decodeRune_width_le c t
      split
      · trivial
      split
      · exact ⟨by show i < i + _; omega, by show i + _ ≤ _; omega⟩
      · exact (ih _ (by omega) (by omega)).mono fun a h => ⟨by omega, h.2⟩

/-- A first character other than the end has a width. -/
theorem first_width {s : Bytes} {c : Nat} (hc : c < 128) (h : (decodeRune s).1 = c) : s ≠ [] ∧ (decodeRune s).2 = 1 := by
  cases s with
  | nil =>
    have : runeError = c := h
    simp only [runeError] at this
    omega
  | cons x t =>
    have hx := (decodeRune_eq_iff x t c hc).1 h
    rw [decodeRune_ascii x t (by omega)]
    exact ⟨by simp, rfl⟩

theorem fine_fieldArg (s : Bytes) : Fine (fun x : Arg × Nat => 0 < x.2 ∧ x.2 ≤ s.length) (parseFieldArg s) := by
  rw [parseFieldArg]
  split
  · trivial
  rename_i h
  obtain ⟨hne, hw⟩ := first_width (by decide) (Classical.not_not.1 h)
  have : 0 < s.length := List.length_pos_iff.2 hne
  rw [hw]
  refine (fine_scanTo (close := 125) (by decide) (by omega)).bind fun x hx => ?_
  obtain ⟨i, n⟩ := x
  refine (fine_slice hx.1 (by have := hx.2.1; omega)).bind fun v _ => ?_
  have h1 := hx.1
  have h2 := hx.2.1
  have h3 := hx.2.2
  dsimp only at h1 h2 h3
  exact ⟨by show 0 < i + n; omega, by show i + n ≤ _; omega⟩

theorem fine_field : ∀ (k : Nat) (s : Bytes), s.length < k → Fine (fun x : Arg × Nat => 0 < x.2 ∧ x.2 ≤ s.length) (parseField k s) := by
  intro k
  induction k with
  | zero => intro s h; omega
  | succ k ih =>
    intro s hk
    rw [parseField]
    split
    · rename_i h
      obtain ⟨hne, hw⟩ := first_width (by decide) h
      have : 0 < s.length := List.length_pos_iff.2 hne
      rw [parseFieldBytesArg, if_neg (Classical.not_not.2 h), hw]
      refine (fine_scanTo (close := 41) (by decide) (by omega)).bind fun x hx => ?_
      obtain ⟨i, n⟩ := x
      have h1 := hx.1
      have h2 := hx.2.1
      have h3 := hx.2.2
      dsimp only at h1 h2 h3
      refine (fine_slice h1 (by omega)).bind fun v hv => ?_
      have hvl : v.length = i - 1 := by rw [hv, List.length_drop, List.length_take]; omega
      refine (ih v (by omega)).bind fun y hy => ?_
      obtain ⟨f, m⟩ := y
      have hy1 := hy.1
      have hy2 := hy.2
      dsimp only at hy1 hy2
      refine (fine_sliceFrom hy2).bind fun w hw' => ?_
      refine (fine_skip w).bind fun j hj => ?_
      rw [hw', List.length_drop] at hj
      refine (fine_sliceFrom (by omega)).bind fun rest _ => ?_
      exact ⟨by show 0 < i + n; omega, by show i + n ≤ _; omega⟩
    split
    · exact fine_fieldArg s
    split
    · exact (fine_var s _ 0 (by omega) (by omega)).mono fun a h => h
    · trivial

theorem fine_elements (v : Bytes) : ∀ k i r, i ≤ v.length → v.length - i < k → Fine (fun _ => True) (elements v k i r) := by
  intro k
  induction k with
  | zero => intro i r _ h; omega
  | succ k ih =>
    intro i r hi hk
    rw [elements]
    split
    · trivial
    rename_i hne
    refine (fine_sliceFrom hi).bind fun w hw => ?_
    have hwl : w.length = v.length - i := by rw [hw, List.length_drop]
    refine (fine_field _ w (by omega)).bind fun y hy => ?_
    obtain ⟨arg, n⟩ := y
    have hy1 := hy.1
    have hy2 := hy.2
    dsimp only at hy1 hy2
    dsimp only
    refine (fine_sliceFrom (by omega)).bind fun w' hw' => ?_
    refine (fine_skip w').bind fun j hj => ?_
    rw [hw', List.length_drop] at hj
    split
    · rename_i hlt
      refine (fine_sliceFrom (by omega)).bind fun u hu => ?_
      split
      · trivial
      rename_i h44
      obtain ⟨-, hwd⟩ := first_width (by decide) (Classical.not_not.1 h44)
      rw [hwd]
      refine (fine_sliceFrom (by omega)).bind fun u' hu' => ?_
      refine (fine_skip u').bind fun j' hj' => ?_
      rw [hu', List.length_drop] at hj'
      exact ih _ _ (by omega) (by omega)
    · refine (fine_sliceFrom (by omega)).bind fun u' hu' => ?_
      refine (fine_skip u').bind fun j' hj' => ?_
      rw [hu', List.length_drop] at hj'
      exact ih _ _ (by omega) (by omega)

theorem fine_readArray {s : Bytes} {i : Nat} (hi : i ≤ s.length) : Fine (fun x : Arg × Nat => i < x.2 ∧ x.2 ≤ s.length) (readArray s i) := by
  rw [readArray]
  refine (fine_sliceFrom hi).bind fun t ht => ?_
  split
  · trivial
  rename_i h
  obtain ⟨hne, hw⟩ := first_width (by decide) (Classical.not_not.1 h)
  have hlt : 0 < t.length := List.length_pos_iff.2 hne
  rw [ht, List.length_drop] at hlt
  rw [hw]
  refine (fine_scanTo (close := 93) (by decide) (by omega)).bind fun x hx => ?_
  obtain ⟨j, n⟩ := x
  have h1 := hx.1
  have h2 := hx.2.1
  have h3 := hx.2.2
  dsimp only at h1 h2 h3
  refine (fine_slice h1 (by omega)).bind fun v _ => ?_
  refine (fine_elements v _ 0 [] (by omega) (by omega)).bind fun r _ => ?_
  exact ⟨by show i < j + n; omega, by show j + n ≤ _; omega⟩

theorem fine_readField {s : Bytes} {i : Nat} (hi : i ≤ s.length) : Fine (fun x : Arg × Nat => i < x.2 ∧ x.2 ≤ s.length) (readField s i) := by
  rw [readField]
  refine (fine_sliceFrom hi).bind fun t ht => ?_
  refine (fine_field _ t (by omega)).bind fun y hy => ?_
  have hy1 := hy.1
  have hy2 := hy.2
  rw [ht, List.length_drop] at hy2
  exact ⟨by show i < i + y.2; omega, by show i + y.2 ≤ _; omega⟩

theorem fine_tokenize (s : Bytes) : ∀ k i args, i ≤ s.length → s.length - i < k → Fine (fun _ => True) (tokenizeFrom s k i args) := by
  intro k
  induction k with
  | zero => intro i r _ h; omega
  | succ k ih =>
    intro i args hi hk
    rw [tokenizeFrom]
    split
    · refine (fine_sliceFrom hi).bind fun t ht => ?_
      refine (fine_skip t).bind fun j hj => ?_
      rw [ht, List.length_drop] at hj
      refine (fine_sliceFrom (by omega)).bind fun u _ => ?_
      split
      · refine (fine_readField (by omega)).bind fun y hy => ?_
        have := hy.1
        have := hy.2
        exact ih _ _ (by omega) (by omega)
      split
      · refine (fine_readArray (by omega)).bind fun y hy => ?_
        have := hy.1
        have := hy.2
        exact ih _ _ (by omega) (by omega)
      · trivial
    · trivial

end Teal.Imm
