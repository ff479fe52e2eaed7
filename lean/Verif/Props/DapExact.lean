import Verif.Props.Dap

/-!
# Which debug requests are answered

C57 for every message.
-/

namespace Teal.Props
open Teal Teal.Spec Teal.Dap

/-- **C57** (for every message the adapter survives.)  A known command gets one response, first and with its
number, unless it is to launch a file that cannot be read; any other message, and such a launch, gets nothing
and changes nothing. -/
theorem C57_exact {env : Env} {d : Dbg} {m : Msg} {r : Outcome} (h : Handles env d m r) (hn : r.next ≠ none) :
    (KnownCommand m.cmd ∧ (∀ name, m.cmd ≠ .launch (some name) none) ∧
      ∃ o os, r.outs = o :: os ∧ o.response = some (m.seq, true) ∧ ∀ o' ∈ os, o'.response = none) ∨
    ((¬ KnownCommand m.cmd ∨ ∃ name, m.cmd = .launch (some name) none) ∧ r.outs = [] ∧ r.next = some d) := by
  by_cases hk : KnownCommand m.cmd
  · by_cases hl : ∃ name, m.cmd = .launch (some name) none
    · right
      refine ⟨.inr hl, ?_⟩
      obtain ⟨name, hl⟩ := hl
      cases h with
      | plain _ h =>
        obtain ⟨seq, cmd⟩ := m
        dsimp only at hl
        subst hl
        injection h with h
        subst h
        exact ⟨rfl, rfl⟩
      | continue_ a hc _ _ _ => rw [hl] at hc; cases hc
    · left
      have hl' : ∀ name, m.cmd ≠ .launch (some name) none := fun name he => hl ⟨name, he⟩
      exact ⟨hk, hl', C57_partial h hk hl' hn⟩
  · right
    refine ⟨.inl hk, ?_⟩
    cases h with
    | plain _ h =>
      obtain ⟨seq, cmd⟩ := m
      cases cmd with
      | plain name =>
        unfold Dbg.handle at h
        dsimp only at h
        rw [if_neg (show ¬ name ∈ plainCommands from hk)] at h
        injection h with h
        subst h
        exact ⟨rfl, rfl⟩
      | other =>
        injection h with h
        subst h
        exact ⟨rfl, rfl⟩
      | _ => exact absurd trivial hk
    | continue_ a hc _ _ _ => rw [hc] at hk; exact absurd trivial hk

/-- All three kinds of messages occur, in any state. -/
example (env : Env) (d : Dbg) : (∃ r, Handles env d ⟨1, .threads⟩ r ∧ r.next ≠ none) ∧
    (∃ r, Handles env d ⟨1, .launch (some b!"x") none⟩ r ∧ r.next ≠ none) ∧ ∃ r, Handles env d ⟨1, .other⟩ r ∧ r.next ≠ none := by
  refine ⟨⟨_, .plain (.inr (by simp)) rfl, ?_⟩, ⟨_, .plain (.inr (by simp)) rfl, ?_⟩, ⟨_, .plain (.inr (by simp)) rfl, ?_⟩⟩ <;> simp [Dbg.replies]

end Teal.Props
