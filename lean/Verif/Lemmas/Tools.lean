import Verif.Model.Tools
import Verif.Spec.Tools
import Verif.Lemmas.Cli
import Verif.Lemmas.Display
import Verif.Lemmas.Signature
import Verif.Props.Lexer

/-!
# Lemmas for the small tools: lines about tokens are read in one way
-/

namespace Teal.CliSpec

open Teal Teal.Spec Teal.Cli

/-- What comes before the first `c`. -/
theorem before_eq {c : UInt8} : ∀ {a b x y : Bytes}, c ∉ a → c ∉ b → a ++ c :: x = b ++ c :: y → a = b ∧ x = y
  | [], [], _, _, _, _, h => ⟨rfl, (List.cons.inj h).2⟩
  | [], d :: b, _, _, _, hb, h => absurd (List.cons.inj h).1 (fun e => hb (e ▸ List.mem_cons_self))
  | d :: a, [], _, _, ha, _, h => absurd (List.cons.inj h).1 (fun e => ha (e.symm ▸ List.mem_cons_self))
  | d :: a, e :: b, _, _, ha, hb, h => by
    obtain ⟨h1, h2⟩ := List.cons.inj h
    obtain ⟨h3, h4⟩ := before_eq (fun m => ha (List.mem_cons_of_mem _ m)) (fun m => hb (List.mem_cons_of_mem _ m)) h2
    exact ⟨by rw [h1, h3], h4⟩

/-- Either the same, or one goes on behind a `c`. -/
theorem before_cases {c : UInt8} : ∀ {a b x y : Bytes}, a ++ c :: x = b ++ c :: y →
    (a = b ∧ x = y) ∨ (∃ z, b = a ++ c :: z) ∨ ∃ z, a = b ++ c :: z
  | [], [], _, _, h => .inl ⟨rfl, (List.cons.inj h).2⟩
  | [], d :: b, _, _, h => .inr (.inl ⟨b, by rw [(List.cons.inj h).1]; rfl⟩)
  | d :: a, [], _, _, h => .inr (.inr ⟨a, by rw [← (List.cons.inj h).1]; rfl⟩)
  | d :: a, e :: b, _, _, h => by
    obtain ⟨rfl, h2⟩ := List.cons.inj h
    rcases before_cases h2 with ⟨rfl, rfl⟩ | ⟨z, rfl⟩ | ⟨z, rfl⟩
    · exact .inl ⟨rfl, rfl⟩
    · exact .inr (.inl ⟨z, rfl⟩)
    · exact .inr (.inr ⟨z, rfl⟩)

theorem decimal_no_colon {n : Nat} {s : Bytes} (h : DecimalOf n s) : (58 : UInt8) ∉ s :=
  fun m => absurd ((decimal_digits h).2 58 m).2 (by decide)

theorem noQuote_head {prev : UInt8} {t : Bytes} (h : NoQuote prev t) (hp : prev ≠ chBackslash) : t.head? ≠ some chQuote := by
  cases h with
  | nil => simp
  | cons _ c t hc _ =>
    intro e
    exact hp (hc (Option.some.inj e))

/-- Each backslash removed stands before a quote that stays. -/
theorem unescaped_length {s u : Bytes} (h : Unescaped s u) : ∀ {prev : UInt8}, NoQuote prev s → s.head? ≠ some chQuote →
    s.length = u.length + u.count 34 := by
  induction h with
  | nil => intros; rfl
  | esc t u _ ih =>
    intro prev hq _
    cases hq with
    | cons _ _ _ _ hq =>
      cases hq with
      | cons _ _ _ _ hq =>
        have := ih hq (noQuote_head hq (by decide))
        have hc : (chQuote :: u).count (34 : UInt8) = u.count 34 + 1 := List.count_cons_self (a := (34 : UInt8))
        rw [hc]
        simp only [List.length_cons]
        omega
  | keep c t u hc _ ih =>
    intro prev hq hh
    have hne : c ≠ chQuote := fun e => hh (by rw [e]; rfl)
    cases hq with
    | cons _ _ _ _ hq =>
      have ht : t.head? ≠ some chQuote := by
        intro e
        by_cases hb : c = chBackslash
        · exact hc ⟨hb, e⟩
        · exact noQuote_head hq hb e
      have := ih hq ht
      have hc' : (c :: u).count (34 : UInt8) = u.count 34 := List.count_cons_of_ne hne
      rw [hc']
      simp only [List.length_cons]
      omega

/-- What the text of a token says of its width. -/
def Fits (t : Token) : Prop :=
  (t.t = .comment → 10 ∉ t.v) ∧
  (t.t = .value → (10 ∉ t.v ∧ t.v ≠ [] ∧ t.v.head? ≠ some 34) ∨ ∃ u, t.v = 34 :: (u ++ [34]) ∧ t.e = t.b + (u.length + u.count 34 + 2))

theorem tokens_fit (src : Bytes) : ∀ t ∈ (readTokens src).1, Fits t := by
  obtain ⟨ps, tail, hd, hp⟩ := Teal.Props.C02_positions_partial src
  intro t ht
  rw [hd.toks_eq] at ht
  obtain ⟨p, hm, rfl⟩ := List.mem_map.1 ht
  obtain ⟨ps1, ps2, hs⟩ := List.append_of_mem hm
  have hw := (hp ps1 p ps2 hs).1
  cases (hd.pieces p hm).2 with
  | eol ht _ _ => exact ⟨fun h => (by rw [ht] at h; cases h), fun h => (by rw [ht] at h; cases h)⟩
  | comment ht _ hv => exact ⟨fun _ m => hv 10 m (by simp [Break]), fun h => (by rw [ht] at h; cases h)⟩
  | bare ht hv hne hq hs =>
    refine ⟨fun h => (by rw [ht] at h; cases h), fun _ => .inl ⟨fun m => hs 10 (hv ▸ m) (.inr (.inr rfl)), hv ▸ hne, hv ▸ hq⟩⟩
  | quoted ht body u hraw hv hu hbody hlast =>
    refine ⟨fun h => (by rw [ht] at h; cases h), fun _ => .inr ⟨u, hv, ?_⟩⟩
    have hl := unescaped_length hu hbody (noQuote_head hbody (by decide))
    rw [hw, hraw]
    simp only [List.length_cons, List.length_append, List.length_nil]
    omega

theorem named_cases {t : Token} {k : Bytes} (h : Named t k) (hf : Fits t) :
    (k = b!"EOL" ∧ t.t = .eol) ∨ (k = b!"Comment = " ++ t.v ∧ t.t = .comment ∧ 10 ∉ t.v) ∨
    (k = b!"Value = " ++ t.v ∧ t.t = .value ∧ t.v ≠ [] ∧
      ((10 ∉ t.v ∧ t.v.head? ≠ some 34) ∨ ∃ u, t.v = 34 :: (u ++ [34]) ∧ t.e = t.b + (u.length + u.count 34 + 2))) := by
  cases h with
  | eol h => exact .inl ⟨rfl, h⟩
  | value h =>
    refine .inr (.inr ⟨rfl, h, ?_, ?_⟩)
    · rcases hf.2 h with ⟨_, h, _⟩ | ⟨u, e, _⟩
      · exact h
      · rw [e]; simp
    · rcases hf.2 h with ⟨h1, _, h2⟩ | h
      · exact .inl ⟨h1, h2⟩
      · exact .inr h
  | comment h => exact .inr (.inl ⟨rfl, h, hf.1 h⟩)

/-- The text of a token does not go on behind a line feed, given its width. -/
theorem named_stops {t u : Token} {k z : Bytes} (ht : Named t k) (hu : Named u (k ++ 10 :: z)) (ft : Fits t) (fu : Fits u)
    (hb : t.b = u.b) (he : t.e = u.e) : False := by
  rcases named_cases hu fu with ⟨h1, _⟩ | ⟨h1, _, h3⟩ | ⟨h1, _, _, h3⟩
  · have : (10 : UInt8) ∈ b!"EOL" := by rw [← h1]; simp
    exact absurd this (by decide)
  · have : (10 : UInt8) ∈ b!"Comment = " ++ u.v := by rw [← h1]; simp
    rcases List.mem_append.1 this with h | h
    · exact absurd h (by decide)
    · exact h3 h
  · rcases h3 with ⟨h3, _⟩ | ⟨w, h4, h5⟩
    · have : (10 : UInt8) ∈ b!"Value = " ++ u.v := by rw [← h1]; simp
      rcases List.mem_append.1 this with h | h
      · exact absurd h (by decide)
      · exact h3 h
    · rcases named_cases ht ft with ⟨rfl, _⟩ | ⟨rfl, _, _⟩ | ⟨rfl, _, hne, hv⟩
      · exact absurd (List.cons.inj h1).1 (by decide)
      · exact absurd (List.cons.inj h1).1 (by decide)
      · rw [List.append_assoc] at h1
        have h6 := List.append_cancel_left h1
        rw [h4] at h6
        rcases hv with ⟨_, hh⟩ | ⟨v, h7, h8⟩
        · cases hc : t.v with
          | nil => exact hne hc
          | cons c x =>
            rw [hc] at h6 hh
            exact hh (by rw [(List.cons.inj h6).1]; rfl)
        · rw [h7] at h6
          have h9 := (List.cons.inj h6).2
          rcases List.eq_nil_or_concat z with rfl | ⟨z', c, rfl⟩
          · have := congrArg List.getLast? h9
            simp at this
          · have e1 : v ++ [34] ++ 10 :: (z' ++ [c]) = (v ++ 34 :: 10 :: z') ++ [c] := by simp
            have h9 : v ++ [34] ++ 10 :: (z' ++ [c]) = w ++ [34] := by rw [← h9, List.concat_eq_append]; rfl
            rw [e1] at h9
            obtain ⟨h10, -⟩ := List.append_inj' h9 rfl
            rw [← h10] at h5
            simp only [List.length_append, List.length_cons, List.count_append] at h5
            have : ((34 : UInt8) :: 10 :: z').count 34 = (10 :: z').count (34 : UInt8) + 1 := List.count_cons_self
            omega

theorem named_same {t u : Token} {k : Bytes} (ht : Named t k) (hu : Named u k) : t.t = u.t ∧ (t.t ≠ .eol → t.v = u.v) := by
  have hk : ∀ {t u : Token} {k : Bytes}, Named t k → Named u k → t.t = u.t := by
    intro t u k ht hu
    cases ht with
    | eol h =>
      generalize hx : b!"EOL" = x at hu
      cases hu with
      | eol h' => rw [h, h']
      | value h' => exact absurd (List.cons.inj hx).1 (by decide)
      | comment h' => exact absurd (List.cons.inj hx).1 (by decide)
    | value h =>
      generalize hx : b!"Value = " ++ t.v = x at hu
      cases hu with
      | eol h' => exact absurd (List.cons.inj hx).1 (by decide)
      | value h' => rw [h, h']
      | comment h' => exact absurd (List.cons.inj hx).1 (by decide)
    | comment h =>
      generalize hx : b!"Comment = " ++ t.v = x at hu
      cases hu with
      | eol h' => exact absurd (List.cons.inj hx).1 (by decide)
      | value h' => exact absurd (List.cons.inj hx).1 (by decide)
      | comment h' => rw [h, h']
  refine ⟨hk ht hu, ?_⟩
  intro hne
  have hkt := hk ht hu
  cases ht with
  | eol h => exact absurd h hne
  | value h =>
    generalize hx : b!"Value = " ++ t.v = x at hu
    cases hu with
    | eol h' => exact absurd (List.cons.inj hx).1 (by decide)
    | value h' => exact List.append_cancel_left hx
    | comment h' => exact absurd (List.cons.inj hx).1 (by decide)
  | comment h =>
    generalize hx : b!"Comment = " ++ t.v = x at hu
    cases hu with
    | eol h' => exact absurd (List.cons.inj hx).1 (by decide)
    | value h' => exact absurd (List.cons.inj hx).1 (by decide)
    | comment h' => exact List.append_cancel_left hx

/-- A line about a token and what follows it are told apart. -/
theorem line_same {t u : Token} {s s' r r' : Bytes} (ht : TokenLine t s) (hu : TokenLine u s') (ft : Fits t) (fu : Fits u)
    (h : s ++ r = s' ++ r') : SameToken t u ∧ r = r' := by
  obtain ⟨l, b, e, k, h1, h2, h3, h4, rfl⟩ := ht
  obtain ⟨l', b', e', k', g1, g2, g3, g4, rfl⟩ := hu
  simp only [List.append_assoc, List.cons_append, List.nil_append] at h
  obtain ⟨q1, h⟩ := before_eq (decimal_no_colon h1) (decimal_no_colon g1) h
  obtain ⟨q2, h⟩ := before_eq (decimal_no_colon h2) (decimal_no_colon g2) h
  obtain ⟨q3, h⟩ := before_eq (decimal_no_colon h3) (decimal_no_colon g3) h
  rw [← q1] at g1
  rw [← q2] at g2
  rw [← q3] at g3
  have hl := decimal_eq h1 g1
  have hb := decimal_eq h2 g2
  have he := decimal_eq h3 g3
  rcases before_cases (List.cons.inj h).2 with ⟨rfl, rfl⟩ | ⟨z, rfl⟩ | ⟨z, rfl⟩
  · obtain ⟨e1, e2⟩ := named_same h4 g4
    exact ⟨⟨by omega, by omega, by omega, e1, e2⟩, rfl⟩
  · exact (named_stops h4 g4 ft fu (by omega) (by omega)).elim
  · exact (named_stops g4 h4 fu ft (by omega) (by omega)).elim

theorem tokenLine_is (t : Token) : TokenLine t (tokenLine t) := by
  unfold tokenLine kindText
  cases h : t.t with
  | eol => exact ⟨_, _, _, _, formatUint_decimal _, formatUint_decimal _, formatUint_decimal _, .eol h, by simp⟩
  | value => exact ⟨_, _, _, _, formatUint_decimal _, formatUint_decimal _, formatUint_decimal _, .value h, by simp⟩
  | comment => exact ⟨_, _, _, _, formatUint_decimal _, formatUint_decimal _, formatUint_decimal _, .comment h, by simp⟩

end Teal.CliSpec
