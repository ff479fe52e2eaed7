import Verif.Props.Signature
import Verif.Spec.Opened

/-!
# What the signature of every opcode looks like
-/

namespace Teal.Props

open Teal Teal.Spec Teal.WireSpec Teal.JsonSpec Teal.Wire

theorem joinSpace_spaced (ss : List Bytes) : joinSpace ss = spaced ss := by
  induction ss with
  | nil => rfl
  | cons s ss ih =>
    cases ss with
    | nil => simp [joinSpace, spaced]
    | cons t ss =>
      rw [joinSpace, ih]
      · simp [spaced]
      · simp

theorem full_opened (as : List DocArg) : joinSpace (as.map DocArg.full) = openedText (as.map DocArg.operand) := by
  rw [joinSpace_spaced, openedText, List.map_map]
  congr 1
  refine List.map_congr_left fun a _ => ?_
  obtain ⟨n, ty, arr, opt⟩ := a
  cases arr <;> cases opt <;> simp [DocArg.full, DocArg.listed, DocArg.operand, Operand.long]

/-- **C113** (exactly.)  The signature of every opcode has all its operands, each one that can be left out behind a
bracket that is not closed, and they are those of the reference, except for `gitxna`. -/
theorem C113_exact (t : Texts) (w : Bytes) (hw : ∃ d ∈ docOps, d.name = w) :
    ∃ os : List Operand, (w ≠ b!"gitxna" → Describes w os) ∧ (∀ active, ShowsOpened w os (signatureOut t w active)) ∧
      ((∃ o ∈ os, o.optional = true) ↔ w ∈ [b!"replace", b!"extract", b!"txn", b!"gtxns", b!"gtxn"]) := by
  obtain ⟨e, he⟩ := Option.isSome_iff_exists.1 ((known_op w).2 hw)
  obtain ⟨hm, hn⟩ := opsGet_mem he
  refine ⟨e.docArgs.map DocArg.operand, shown_ops he, fun active => ?_, ?_⟩
  · have hl : opText w OpEntry.fullSig = w ++ b!" " ++ openedText (e.docArgs.map DocArg.operand) := by
      rw [opText, he]
      show e.fullSig = _
      rw [OpEntry.fullSig, full_opened, hn]
    have ha : opArgNames w = e.docArgs.map (·.name) := by rw [opArgNames, he]
    refine ⟨_, rfl, has_find (by decide) rfl (.cons ⟨_, rfl, ?_⟩ .nil)⟩
    rw [← hl, ha]
    by_cases hd : e.docArgs = []
    · rw [hd]
      split <;> exact ⟨has_find (by decide) rfl rfl, lacks_of (by decide) rfl⟩
    · rw [if_neg (show ¬ e.docArgs.map (·.name) = [] by simpa using hd)]
      dsimp only
      rw [if_neg (show ¬ e.docArgs.map DocArg.operand = [] by simpa using hd)]
      have harr : IsArr ((e.docArgs.map DocArg.operand).map fun o => IsObj fun ps => Has ps b!"label" (IsStr o.name))
          (.arr ((e.docArgs.map (·.name)).map fun a => .obj [(b!"label", .str a)])) := by
        rw [List.map_map, List.map_map]
        exact isArr_map _ fun a _ => ⟨_, rfl, has_find (by decide) rfl rfl⟩
      split <;> exact ⟨has_find (by decide) rfl rfl, has_find (by decide) rfl harr⟩
  · have hall : ∀ e ∈ opsList, (e.docArgs.any (·.optional)) = decide (e.name ∈ [b!"replace", b!"extract", b!"txn", b!"gtxns", b!"gtxn"]) := by
      decide +kernel
    have := hall e hm
    rw [hn] at this
    rw [← decide_eq_true_iff (p := w ∈ _), ← this]
    simp [DocArg.operand]

/-- The signature of `extract`. -/
example : (∃ d ∈ docOps, d.name = b!"extract") ∧ opText b!"extract" OpEntry.fullSig = b!"extract [{uint8 : s} [{uint8 : l}" := ⟨by decide +kernel, by decide +kernel⟩

end Teal.Props
