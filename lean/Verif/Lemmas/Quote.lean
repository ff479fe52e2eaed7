import Verif.Model.Quote
import Verif.Spec.Quote
import Verif.Lemmas.Json2
import Verif.Lemmas.Clean

/-!
# Lemmas about quoting
-/

namespace Teal

open Spec JsonSpec

theorem hexDigit_unique {c : UInt8} {m n : Nat} (h : HexDigit c m) (h' : HexDigit c n) : m = n := by
  have h1 := (hexVal_iff c m).2 h
  rw [(hexVal_iff c n).2 h'] at h1
  exact (Option.some.inj h1).symm

/-- A literal ends at its closing quote, and stands for one string. -/
theorem goLiteral_prefix {s v : Bytes} (h : GoLiteral s v) : ∀ {t w r r'}, GoLiteral t w → s ++ 34 :: r = t ++ 34 :: r' → v = w ∧ r = r' := by
  induction h with
  | nil =>
    intro t w r r' h' hs
    cases h' with
    | nil => cases hs; exact ⟨rfl, rfl⟩
    | plain _ _ _ _ h2 => cases hs; exact absurd rfl h2
    | _ => cases hs
  | plain c s v h1 h2 h3 h4 h ih =>
    intro t w r r' h' hs
    cases h' with
    | nil => cases hs; exact absurd rfl h2
    | plain _ _ _ _ _ _ _ h' =>
      simp only [List.cons_append, List.cons.injEq] at hs
      obtain ⟨rfl, hs⟩ := hs
      obtain ⟨rfl, rfl⟩ := ih h' hs
      exact ⟨rfl, rfl⟩
    | _ => simp only [List.cons_append, List.cons.injEq] at hs; exact absurd hs.1 h3
  | letter c x s v hc h ih =>
    intro t w r r' h' hs
    cases h' with
    | nil => cases hs
    | plain _ _ _ _ _ h3 => simp only [List.cons_append, List.cons.injEq] at hs; exact absurd hs.1.symm h3
    | letter c' x' s' v' hc' h' =>
      simp only [List.cons_append, List.cons.injEq] at hs
      obtain ⟨-, rfl, hs⟩ := hs
      have : x = x' := by
        simp only [goEscapes, List.mem_cons, Prod.mk.injEq, List.not_mem_nil, or_false] at hc hc'
        rcases hc with ⟨rfl, rfl⟩ | ⟨rfl, rfl⟩ | ⟨rfl, rfl⟩ | ⟨rfl, rfl⟩ | ⟨rfl, rfl⟩ | ⟨rfl, rfl⟩ | ⟨rfl, rfl⟩ | ⟨rfl, rfl⟩ | ⟨rfl, rfl⟩ <;> simp at hc' <;> exact hc'.symm
      obtain ⟨rfl, rfl⟩ := ih h' hs
      exact ⟨by rw [this], rfl⟩
    | _ => simp only [List.cons_append, List.cons.injEq] at hs; rw [hs.2.1] at hc; simp [goEscapes] at hc
  | byte a b m n s v ha hb h ih =>
    intro t w r r' h' hs
    cases h' with
    | nil => cases hs
    | plain _ _ _ _ _ h3 => simp only [List.cons_append, List.cons.injEq] at hs; exact absurd hs.1.symm h3
    | letter c' x' s' v' hc' h' => simp only [List.cons_append, List.cons.injEq] at hs; rw [← hs.2.1] at hc'; simp [goEscapes] at hc'
    | byte a' b' m' n' s' v' ha' hb' h' =>
      simp only [List.cons_append, List.cons.injEq] at hs
      obtain ⟨-, -, rfl, rfl, hs⟩ := hs
      obtain ⟨rfl, rfl⟩ := ih h' hs
      rw [hexDigit_unique ha ha', hexDigit_unique hb hb']
      exact ⟨rfl, rfl⟩
    | _ => simp at hs
  | short x s v n hx hn h ih =>
    intro t w r r' h' hs
    cases h' with
    | nil => cases hs
    | plain _ _ _ _ _ h3 => simp only [List.cons_append, List.cons.injEq] at hs; exact absurd hs.1.symm h3
    | letter c' x' s' v' hc' h' => simp only [List.cons_append, List.cons.injEq] at hs; rw [← hs.2.1] at hc'; simp [goEscapes] at hc'
    | short x' s' v' n' hx' hn' h' =>
      cases hx with
      | mk a b c d =>
        cases hx' with
        | mk a' b' c' d' =>
          simp only [List.cons_append, List.nil_append, List.cons.injEq] at hs
          obtain ⟨-, -, rfl, rfl, rfl, rfl, hs⟩ := hs
          obtain ⟨rfl, rfl⟩ := ih h' hs
          rw [hexDigit_unique a a', hexDigit_unique b b', hexDigit_unique c c', hexDigit_unique d d']
          exact ⟨rfl, rfl⟩
    | _ => simp at hs
  | long x y s v m n hx hy hn h ih =>
    intro t w r r' h' hs
    cases h' with
    | nil => cases hs
    | plain _ _ _ _ _ h3 => simp only [List.cons_append, List.cons.injEq] at hs; exact absurd hs.1.symm h3
    | letter c' x' s' v' hc' h' => simp only [List.cons_append, List.cons.injEq] at hs; rw [← hs.2.1] at hc'; simp [goEscapes] at hc'
    | long x' y' s' v' m' n' hx' hy' hn' h' =>
      cases hx with
      | mk a b c d =>
        cases hx' with
        | mk a' b' c' d' =>
          cases hy with
          | mk e f g i =>
            cases hy' with
            | mk e' f' g' i' =>
              simp only [List.cons_append, List.nil_append, List.cons.injEq] at hs
              obtain ⟨-, -, rfl, rfl, rfl, rfl, rfl, rfl, rfl, rfl, hs⟩ := hs
              obtain ⟨rfl, rfl⟩ := ih h' hs
              rw [hexDigit_unique a a', hexDigit_unique b b', hexDigit_unique c c', hexDigit_unique d d', hexDigit_unique e e', hexDigit_unique f f',
                hexDigit_unique g g', hexDigit_unique i i']
              exact ⟨rfl, rfl⟩
    | _ => simp at hs

theorem hexDigit_print {c : UInt8} {n : Nat} (h : HexDigit c n) : 32 ≤ c ∧ c ≠ 127 := by
  have key : ∀ c : UInt8, (48 ≤ c.toNat ∧ c.toNat ≤ 102) → 32 ≤ c ∧ c ≠ 127 := forall_byte (by decide +kernel)
  apply key
  cases h <;> omega

theorem goLiteral_print {s v : Bytes} (h : GoLiteral s v) : ∀ c ∈ s, 32 ≤ c ∧ c ≠ 127 := by
  induction h with
  | nil => simp
  | plain c s v h1 h2 h3 h4 h ih => simpa using ⟨⟨h1, h4⟩, ih⟩
  | letter c x s v hc h ih =>
    have : 32 ≤ c ∧ c ≠ 127 := by
      simp only [goEscapes, List.mem_cons, Prod.mk.injEq, List.not_mem_nil, or_false] at hc
      rcases hc with ⟨rfl, rfl⟩ | ⟨rfl, rfl⟩ | ⟨rfl, rfl⟩ | ⟨rfl, rfl⟩ | ⟨rfl, rfl⟩ | ⟨rfl, rfl⟩ | ⟨rfl, rfl⟩ | ⟨rfl, rfl⟩ | ⟨rfl, rfl⟩ <;> decide
    intro d hd
    simp only [List.mem_cons] at hd
    rcases hd with rfl | rfl | hd
    · decide
    · exact this
    · exact ih d hd
  | byte a b m n s v ha hb h ih =>
    intro d hd
    simp only [List.mem_cons] at hd
    rcases hd with rfl | rfl | rfl | rfl | hd
    · decide
    · decide
    · exact hexDigit_print ha
    · exact hexDigit_print hb
    · exact ih d hd
  | short x s v n hx hn h ih =>
    cases hx with
    | mk a b c e =>
      intro d hd
      simp only [List.cons_append, List.nil_append, List.mem_cons] at hd
      rcases hd with rfl | rfl | rfl | rfl | rfl | rfl | hd
      · decide
      · decide
      · exact hexDigit_print a
      · exact hexDigit_print b
      · exact hexDigit_print c
      · exact hexDigit_print e
      · exact ih d hd
  | long x y s v m n hx hy hn h ih =>
    cases hx with
    | mk a b c e =>
      cases hy with
      | mk a' b' c' e' =>
        intro d hd
        simp only [List.cons_append, List.nil_append, List.mem_cons] at hd
        rcases hd with rfl | rfl | rfl | rfl | rfl | rfl | rfl | rfl | rfl | rfl | hd
        · decide
        · decide
        · exact hexDigit_print a
        · exact hexDigit_print b
        · exact hexDigit_print c
        · exact hexDigit_print e
        · exact hexDigit_print a'
        · exact hexDigit_print b'
        · exact hexDigit_print c'
        · exact hexDigit_print e'
        · exact ih d hd

/-! ## The code -/

theorem hexDigits_two (n : Nat) : hexDigits 2 n = [Json.hexDigit (n / 16 % 16), Json.hexDigit (n % 16)] := rfl

theorem hexDigits_four {n : Nat} (h : n < 65536) : Hex4 (hexDigits 4 n) n := by
  have := Hex4.mk (hexDigit_spec (k := n / 16 / 16 / 16 % 16) (by omega)) (hexDigit_spec (k := n / 16 / 16 % 16) (by omega))
    (hexDigit_spec (k := n / 16 % 16) (by omega)) (hexDigit_spec (k := n % 16) (by omega))
  have e : n / 16 / 16 / 16 % 16 * 4096 + n / 16 / 16 % 16 * 256 + n / 16 % 16 * 16 + n % 16 = n := by omega
  rw [e] at this
  exact this

theorem hexDigits_add (k : Nat) : ∀ (j n : Nat), hexDigits (k + j) n = hexDigits k (n / 16 ^ j) ++ hexDigits j n := by
  intro j
  induction j with
  | zero => intro n; simp [hexDigits]
  | succ j ih =>
    intro n
    rw [← Nat.add_assoc, hexDigits, ih, hexDigits, List.append_assoc, Nat.div_div_eq_div_mul, Nat.pow_succ, Nat.mul_comm 16]

theorem hexDigits_mod (k : Nat) : ∀ (n : Nat), hexDigits k n = hexDigits k (n % 16 ^ k) := by
  induction k with
  | zero => intro n; rfl
  | succ k ih =>
    intro n
    rw [hexDigits, hexDigits, ih (n / 16), ih (n % 16 ^ (k + 1) / 16)]
    have h1 : n % 16 ^ (k + 1) / 16 = n / 16 % 16 ^ k := by
      rw [Nat.pow_succ, Nat.mul_comm, Nat.mod_mul_right_div_self]
    have h2 : n % 16 ^ (k + 1) % 16 = n % 16 := by
      rw [Nat.pow_succ, Nat.mul_comm]; exact Nat.mod_mul_right_mod _ _ _
    rw [h1, h2, Nat.mod_mod]

theorem plain_many {u : Bytes} (hu : ∀ c ∈ u, 128 ≤ c) {s v : Bytes} (h : GoLiteral s v) : GoLiteral (u ++ s) (u ++ v) := by
  have big : ∀ c : UInt8, 128 ≤ c → 32 ≤ c ∧ c ≠ 34 ∧ c ≠ 92 ∧ c ≠ 127 := forall_byte (by decide +kernel)
  induction u with
  | nil => exact h
  | cons c u ih =>
    obtain ⟨h1, h2, h3, h4⟩ := big c (hu c List.mem_cons_self)
    exact .plain c _ _ h1 h2 h3 h4 (ih fun d hd => hu d (List.mem_cons_of_mem _ hd))

theorem utf8_big {n : Nat} (hn : Scalar n) (h : 128 ≤ n) : ∀ c ∈ utf8 n, 128 ≤ c := by
  rcases WireSpec.utf8_shape n hn with ⟨c, hc, h1⟩ | ⟨h1, -⟩
  · exfalso
    obtain ⟨d, t, h2, -, h3⟩ := utf8_cons n
    rw [h1] at h2
    cases h2
    have := h3 h (by unfold Scalar at hn; omega)
    have h4 : c.toNat < 128 := by simpa [UInt8.lt_iff_toNat_lt] using hc
    omega
  · exact h1

theorem quoteRune_literal (print : Nat → Bool) {n : Nat} (hn : Scalar n) {s v : Bytes} (h : GoLiteral s v) : GoLiteral (quoteRune print n ++ s) (utf8 n ++ v) := by
  by_cases hb : 128 ≤ n
  · unfold quoteRune
    rw [if_neg (by omega)]
    split
    · exact plain_many (utf8_big hn hb) h
    · rw [if_neg (by omega), if_neg (by omega), if_neg (by omega), if_neg (by omega), if_neg (by omega), if_neg (by omega), if_neg (by omega), if_neg (by omega)]
      split
      · exact .short _ _ _ _ (hexDigits_four (by omega)) hn h
      · have e : hexDigits 8 n = hexDigits 4 (n / 65536) ++ hexDigits 4 (n % 65536) := by
          rw [show 8 = 4 + 4 from rfl, hexDigits_add, hexDigits_mod 4 n]
        have hlt : n < 0x110000 := by unfold Scalar at hn; omega
        have e2 : n / 65536 * 65536 + n % 65536 = n := by omega
        rw [e]
        have := GoLiteral.long (hexDigits 4 (n / 65536)) (hexDigits 4 (n % 65536)) s v (n / 65536) (n % 65536) (hexDigits_four (by omega)) (hexDigits_four (by omega))
          (by rw [e2]; exact hn) h
        rw [e2] at this
        simpa using this
  · have h1 : utf8 n = [n.toUInt8] := by unfold utf8; rw [if_pos (by omega)]
    rw [h1]
    have low : ∀ k : Fin 128, quoteRune (fun _ => false) k.val =
        if k.val = 34 ∨ k.val = 92 then [92, k.val.toUInt8]
        else if 32 ≤ k.val ∧ k.val < 127 then [k.val.toUInt8]
        else match goEscapes.find? fun p => p.2 = k.val.toUInt8 with
          | some p => [92, p.1]
          | none => [92, 120, Json.hexDigit (k.val / 16), Json.hexDigit (k.val % 16)] := by decide +kernel
    have e : quoteRune print n = quoteRune (fun _ => false) n := by
      unfold quoteRune isPrint
      simp only [show n < 128 by omega, if_true]
    have hl := low ⟨n, by omega⟩
    dsimp only at hl
    rw [e, hl]
    have hv : n.toUInt8.toNat = n := by rw [toNat_toUInt8]; omega
    split
    · rename_i hq
      refine .letter _ _ _ _ ?_ h
      rcases hq with rfl | rfl <;> decide
    · rename_i hq
      split
      · rename_i hp
        have hne : ∀ k : Nat, k < 256 → n ≠ k → n.toUInt8 ≠ k.toUInt8 := by
          intro k hk hnk he
          have := congrArg UInt8.toNat he
          rw [hv, toNat_toUInt8] at this
          omega
        refine .plain _ _ _ ?_ (hne 34 (by decide) (by omega)) (hne 92 (by decide) (by omega)) (hne 127 (by decide) (by omega)) h
        rw [UInt8.le_iff_toNat_le, hv]
        exact hp.1
      · split
        · rename_i p hp
          have h2 := List.mem_of_find?_eq_some hp
          have h3 := List.find?_some hp
          simp only [decide_eq_true_eq] at h3
          rw [← h3]
          exact .letter p.1 p.2 _ _ h2 h
        · have e2 : n / 16 * 16 + n % 16 = n := by omega
          have := GoLiteral.byte _ _ _ _ s v (hexDigit_spec (k := n / 16) (by omega)) (hexDigit_spec (k := n % 16) (by omega)) h
          rw [e2] at this
          exact this

theorem quoteLoop_literal (print : Nat → Bool) : ∀ (fuel : Nat) (s : Bytes), s.length ≤ fuel → GoLiteral (quoteLoop print fuel s) s := by
  intro fuel
  induction fuel with
  | zero => intro s hl; rw [List.length_eq_zero_iff.1 (Nat.le_zero.1 hl)]; exact .nil
  | succ fuel ih =>
    intro s hl
    cases s with
    | nil => exact .nil
    | cons c s =>
      rw [List.length_cons] at hl
      rw [quoteLoop]
      split
      · rename_i hc
        have hn : c.toNat < 128 := by simpa [UInt8.lt_iff_toNat_lt] using hc
        have := quoteRune_literal print (n := c.toNat) (by unfold Scalar; omega) (ih s (by omega))
        have h1 : utf8 c.toNat = [c] := by unfold utf8; rw [if_pos (by omega), toUInt8_toNat]
        rw [h1] at this
        exact this
      · rename_i hc
        have hn : 128 ≤ c.toNat := by
          have : ¬ c.toNat < 128 := by simpa [UInt8.lt_iff_toNat_lt] using hc
          omega
        dsimp only
        rcases decodeRune_cases c s hn with h | ⟨n, rest, h1, h2, h3, h4⟩
        · rw [h, if_pos ⟨rfl, rfl⟩, hexDigits_two]
          have hlt := c.toNat_lt
          have := GoLiteral.byte _ _ _ _ _ _ (hexDigit_spec (k := c.toNat / 16 % 16) (by omega)) (hexDigit_spec (k := c.toNat % 16) (by omega)) (ih s (by omega))
          have e : (c.toNat / 16 % 16 * 16 + c.toNat % 16).toUInt8 = c := eq_toUInt8 (by omega)
          rw [e] at this
          exact this
        · have hlen : 2 ≤ (utf8 n).length := by
            unfold utf8
            rw [if_neg (by omega)]
            split
            · simp
            · split <;> simp
          rw [h4, if_neg (by dsimp only; omega)]
          dsimp only
          rw [h3, List.drop_left' rfl]
          have hr : rest.length ≤ fuel := by
            have := congrArg List.length h3
            rw [List.length_cons, List.length_append] at this
            omega
          exact quoteRune_literal print h1 (ih rest hr)

open WireSpec in
theorem quoteRune_utf8 (print : Nat → Bool) {n : Nat} (hn : Scalar n) : Utf8 (quoteRune print n) := by
  have hx : ∀ k m, Utf8 (hexDigits k m) := by
    intro k
    induction k with
    | zero => intro m; exact .nil
    | succ k ih =>
      intro m
      refine utf8_append (ih _) (ascii_utf8 fun c hc => ?_)
      rw [List.mem_singleton] at hc
      have key : ∀ i : Fin 16, Json.hexDigit i.val < 128 := by decide +kernel
      rw [hc]
      exact key ⟨m % 16, by omega⟩
  unfold quoteRune
  repeat' split
  all_goals first
    | exact utf8_append (utf8_of_bool (by decide)) (hx _ _)
    | exact utf8_of_bool (by decide)
    | (rename_i h; rcases h with rfl | rfl <;> exact utf8_of_bool (by decide))
    | (have := Utf8.cons hn .nil; rwa [List.append_nil] at this)

open WireSpec in
theorem quoteLoop_utf8 (print : Nat → Bool) : ∀ (fuel : Nat) (s : Bytes), Utf8 (quoteLoop print fuel s) := by
  intro fuel
  induction fuel with
  | zero => intro s; exact .nil
  | succ fuel ih =>
    intro s
    cases s with
    | nil => exact .nil
    | cons c s =>
      rw [quoteLoop]
      split
      · rename_i hc
        have hn : c.toNat < 128 := by simpa [UInt8.lt_iff_toNat_lt] using hc
        exact utf8_append (quoteRune_utf8 print (by unfold Scalar; omega)) (ih s)
      · rename_i hc
        have hn : 128 ≤ c.toNat := by
          have : ¬ c.toNat < 128 := by simpa [UInt8.lt_iff_toNat_lt] using hc
          omega
        dsimp only
        rcases decodeRune_cases c s hn with h | ⟨n, rest, h1, h2, h3, h4⟩
        · rw [h, if_pos ⟨rfl, rfl⟩, hexDigits_two]
          refine utf8_append (ascii_utf8 ?_) (ih s)
          have key : ∀ c : UInt8, ((b!"\\x" ++ [Json.hexDigit (c.toNat / 16 % 16), Json.hexDigit (c.toNat % 16)]).all (· < 128)) = true := by
            apply forall_byte; decide +kernel
          exact fun x hx => by simpa using List.all_eq_true.1 (key c) x hx
        · rw [h4]
          dsimp only
          split
          · rename_i hp
            exfalso
            have hlen : 2 ≤ (utf8 n).length := by
              unfold utf8
              rw [if_neg (by omega)]
              split
              · simp
              · split <;> simp
            omega
          · exact utf8_append (quoteRune_utf8 print h1) (ih _)

theorem quoteLoop_plain (print : Nat → Bool) : ∀ (s : Bytes), (∀ c ∈ s, 32 ≤ c ∧ c < 127 ∧ c ≠ 34 ∧ c ≠ 92) → quoteLoop print s.length s = s := by
  intro s
  induction s with
  | nil => intro _; rfl
  | cons c s ih =>
    intro h
    have key : ∀ c : UInt8, (32 ≤ c ∧ c < 127 ∧ c ≠ 34 ∧ c ≠ 92) → c < 128 ∧ quoteRune (fun _ => false) c.toNat = [c] := forall_byte (by decide +kernel)
    obtain ⟨h1, h2⟩ := key c (h c List.mem_cons_self)
    have hn : c.toNat < 128 := by simpa [UInt8.lt_iff_toNat_lt] using h1
    have e : quoteRune print c.toNat = quoteRune (fun _ => false) c.toNat := by
      unfold quoteRune isPrint
      simp only [hn, if_true]
    rw [List.length_cons, quoteLoop, if_pos h1, e, h2, ih fun d hd => h d (List.mem_cons_of_mem _ hd)]
    rfl

theorem quote_literal (print : Nat → Bool) (x : Bytes) : ∃ body, quote print x = 34 :: (body ++ [34]) ∧ GoLiteral body x :=
  ⟨_, rfl, quoteLoop_literal print _ x (Nat.le_refl _)⟩

end Teal
