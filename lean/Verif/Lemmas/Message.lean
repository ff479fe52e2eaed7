import Verif.Lemmas.MessageText
import Verif.Lemmas.Frame
import Verif.Lemmas.Display

/-!
# Lemmas: the messages of diagnostics
-/

namespace Teal

open Teal.Spec

theorem tells_head {k : DiagKind} {m : Bytes} (h : Tells k m) : ∃ p ∈ heads, p <+: m := by
  cases h
  all_goals
    refine Classical.byContradiction fun hc => ?_
    simp [heads] at hc

/-- Two words without blanks, up to the blanks behind them. -/
theorem upto_blank {a b s t : Bytes} (ha : (32 : UInt8) ∉ a) (hb : (32 : UInt8) ∉ b) (h : a ++ 32 :: s = b ++ 32 :: t) : a = b ∧ s = t := by
  induction a generalizing b with
  | nil =>
    cases b with
    | nil => simpa using h
    | cons c b => simp only [List.nil_append, List.cons_append, List.cons.injEq] at h; exact absurd h.1 fun e => hb (by simp [e])
  | cons c a ih =>
    cases b with
    | nil => simp only [List.nil_append, List.cons_append, List.cons.injEq] at h; exact absurd h.1 fun e => ha (by simp [e])
    | cons d b =>
      simp only [List.cons_append, List.cons.injEq] at h
      obtain ⟨h1, h2⟩ := ih (fun hm => ha (by simp [hm])) (fun hm => hb (by simp [hm])) h.2
      exact ⟨by rw [h.1, h1], h2⟩

theorem decimal_no_blank {n : Nat} {s : Bytes} (h : DecimalOf n s) : (32 : UInt8) ∉ s := fun hm => by
  have := ((Frame.decimal_facts h).2 _ hm).1
  revert this; decide

theorem tells_inj {k k' : DiagKind} {m m' : Bytes} (h : Tells k m) (h' : Tells k' m') (e : m = m') : k = k' := by
  cases h <;> cases h' <;> first
    | rfl
    | (exfalso; revert e; simp; done)
    | (simp only [List.append_cancel_left_eq, List.append_cancel_right_eq] at e; rw [e]; done)
    | skip
  rename_i min cur a c ha hc min' cur' a' c' ha' hc'
  simp only [List.append_assoc, List.append_cancel_left_eq] at e
  obtain ⟨rfl, e⟩ := upto_blank (decimal_no_blank ha) (decimal_no_blank ha') e
  simp only [List.cons_append, List.nil_append, List.append_cancel_left_eq, List.cons.injEq, true_and, List.append_cancel_right_eq] at e
  subst e
  rw [decimal_eq ha ha', decimal_eq hc hc']

/-- The message says of which kind a problem is. -/
theorem text_iff {operand : Bytes} {k k' : DiagKind} (ho : OfOperand k → Foreign operand) {m : Bytes} (h : Tells k' m) : k.text operand = m ↔ k = k' := by
  constructor
  · intro e
    by_cases hk : OfOperand k
    · rw [operand_text operand hk] at e
      subst e
      obtain ⟨p, h1, h2⟩ := tells_head h
      exact absurd h2 (ho hk p h1)
    · exact tells_inj (tells_text operand hk) h e
  · rintro rfl
    have hk : ¬ OfOperand k := by intro hk; cases h <;> cases hk
    have := tells_text operand hk
    generalize k.text operand = x at this
    revert this h
    clear hk
    intro h h'
    cases h with
    | version min cur a c ha hc =>
      cases h' with
      | version _ _ a' c' ha' hc' => rw [decimal_spelling ha ha', decimal_spelling hc hc']
    | _ => cases h'; rfl

end Teal
