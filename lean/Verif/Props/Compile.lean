import Verif.Lemmas.Optimize

/-!
# C33, C34, C35: compiling and optimising
-/

namespace Teal.Props

open Teal Teal.Spec

/-! ## C33 -/

mutual
theorem compileExpr_flat {e : Expr} {l : List Op} (hf : Flat e) (h : Lists e l) (acc : List Op) :
    compileExpr acc e = some (acc ++ l) := by
  cases hf with
  | op o => cases h; rw [compileExpr]
  | list hf => cases h with | list h => rw [compileExpr]; exact compileExprs_flat hf h acc
theorem compileExprs_flat {es : List Expr} {l : List Op} (hf : FlatAll es) (h : ListsAll es l) (acc : List Op) :
    compileExprs acc es = some (acc ++ l) := by
  cases hf with
  | nil => cases h; rw [compileExprs]; simp
  | cons h1 h2 =>
    cases h with
    | @cons _ _ l1 l2 g1 g2 =>
      rw [compileExprs, compileExpr_flat h1 g1 acc]
      dsimp only
      rw [compileExprs_flat h2 g2, List.append_assoc]
end

mutual
theorem compileExpr_some {acc l : List Op} : ∀ {e : Expr}, compileExpr acc e = some l → Flat e
  | .op o, _ => .op o
  | .list es, h => .list (compileExprs_some (by rwa [compileExpr] at h))
  | .nested _, h => by rw [compileExpr] at h; cases h
  | .func _ _ _ _, h => by rw [compileExpr] at h; cases h
theorem compileExprs_some {acc l : List Op} : ∀ {es : List Expr}, compileExprs acc es = some l → FlatAll es
  | [], _ => .nil
  | e :: es, h => by
    rw [compileExprs] at h
    split at h
    · cases h
    · rename_i acc' h1
      exact .cons (compileExpr_some h1) (compileExprs_some h)
end

mutual
theorem lists_exists : ∀ (e : Expr), ∃ l, Lists e l
  | .op o => ⟨_, .op o⟩
  | .list es => let ⟨_, h⟩ := listsAll_exists es; ⟨_, .list h⟩
  | .nested es => let ⟨_, h⟩ := listsAll_exists es; ⟨_, .nested h⟩
  | .func _ _ _ es => let ⟨_, h⟩ := listsAll_exists es; ⟨_, .func h⟩
theorem listsAll_exists : ∀ (es : List Expr), ∃ l, ListsAll es l
  | [] => ⟨_, .nil⟩
  | e :: es => let ⟨_, h1⟩ := lists_exists e; let ⟨_, h2⟩ := listsAll_exists es; ⟨_, .cons h1 h2⟩
end

mutual
theorem lists_unique {e : Expr} {l l' : List Op} (h : Lists e l) (h' : Lists e l') : l = l' := by
  cases h with
  | op o => cases h'; rfl
  | list h => cases h' with | list h' => exact listsAll_unique h h'
  | nested h => cases h' with | nested h' => exact listsAll_unique h h'
  | func h => cases h' with | func h' => rw [listsAll_unique h h']
theorem listsAll_unique {es : List Expr} {l l' : List Op} (h : ListsAll es l) (h' : ListsAll es l') : l = l' := by
  cases h with
  | nil => cases h'; rfl
  | cons h1 h2 => cases h' with | cons h1' h2' => rw [lists_unique h1 h1', listsAll_unique h2 h2']
end

/-- C33: what `Compile` returns is the instructions of the tree, from left to right, each once.  It
returns exactly for the trees without blocks and functions.  Missing: those with (`C33_false`). -/
theorem C33_partial (es : List Expr) (l : List Op) : compile es = some l ↔ FlatAll es ∧ ListsAll es l := by
  have hl : ∀ {l}, ListsAll es l → ListsAll [.list es] l := by
    intro l h
    have := ListsAll.cons (.list h) .nil
    simpa using this
  unfold compile
  constructor
  · intro h
    have hf := compileExprs_some h
    obtain ⟨l', h'⟩ := listsAll_exists es
    have := compileExprs_flat hf (hl h') []
    rw [h] at this
    simp at this
    subst this
    cases hf with | cons h1 _ => cases h1 with | list h1 => exact ⟨h1, h'⟩
  · rintro ⟨hf, h⟩
    have := compileExprs_flat (.cons (.list hf) .nil) (hl h) []
    simpa using this

/-- The instructions of a tree are determined by it. -/
theorem C33_unique {es : List Expr} {l l' : List Op} (h : ListsAll es l) (h' : ListsAll es l') : l = l' :=
  listsAll_unique h h'

example : compile [.op (.int 1), .list [.op (.int 2), .list [], .list [.op (.plain .plus)]], .op (.plain .returnOp)] =
    some [.int 1, .int 2, .plain .plus, .plain .returnOp] := by
  simp [compile, compileExprs, compileExpr]

/-- C33 fails for blocks: `Compile` panics for every tree with one, for example the sum made by
`Plus`. -/
theorem C33_false : ∃ es, ListsAll es [.int 1, .int 2, .plain .plus] ∧ compile es = none := by
  refine ⟨[.nested [.op (.int 1), .op (.int 2), .op (.plain .plus)]], ?_, by simp [compile, compileExprs, compileExpr]⟩
  exact .cons (.nested (.cons (.op _) (.cons (.op _) (.cons (.op _) .nil)))) .nil

/-! ## C34 -/

/-- C34: if no label is defined twice and every `retsub` is directly behind a label that is
referred to, then the optimised program has the same paths. -/
theorem C34_partial {l : List Op} (hu : UniqueLabels l) (hr : ReturnsAtLabels l) : SamePaths l (optimize l) :=
  optimize_paths hu hr

/-- C34 for the passes on their own: only the removal of `retsub` and labels needs the condition on
`retsub`. -/
theorem C34_passes_partial {l : List Op} (hu : UniqueLabels l) :
    SamePaths l (mergeLabels (removeBJustBeforeItsTargetLabel (removeOpsAfterUnconditionalBranch l))) := by
  rw [merge_id]
  refine SamePaths.trans (after_paths _) (jump_paths ?_)
  rw [removeOpsAfterUnconditionalBranch, (after_select _ _).1]
  exact select_unique hu

/-- A program with something to remove: an unused label, dead code, a jump to the next line. -/
def wasteful : List Op := [.label b!"u", .int 1, .branch .bnz b!"x", .plain .err, .int 3, .label b!"x", .branch .b b!"y",
  .comment b!" c", .label b!"y", .int 2, .plain .returnOp]

theorem wasteful_unique : UniqueLabels wasteful := by
  intro n i j hi hj
  have key : ∀ {i}, DefinedAt wasteful n i → (i = 0 ∧ n = b!"u") ∨ (i = 5 ∧ n = b!"x") ∨ (i = 8 ∧ n = b!"y") := by
    intro i hi
    have hlt : i < 11 := (List.getElem?_eq_some_iff.1 hi).1
    rcases i with _ | _ | _ | _ | _ | _ | _ | _ | _ | _ | _ | i <;> first | (cases hi; simp; done) | (cases hi; done) | omega
  rcases key hi with ⟨rfl, h1⟩ | ⟨rfl, h1⟩ | ⟨rfl, h1⟩ <;> rcases key hj with ⟨rfl, h2⟩ | ⟨rfl, h2⟩ | ⟨rfl, h2⟩ <;>
    first | rfl | (rw [h1] at h2; simp at h2; done)

theorem wasteful_returns : ReturnsAtLabels wasteful := by
  intro i h
  have := List.mem_of_getElem? h
  simp [wasteful] at this

example : optimize wasteful = [.int 1, .branch .bnz b!"x", .plain .err, .label b!"x", .comment b!" c", .label b!"y",
    .int 2, .plain .returnOp] := by decide +kernel
example : SamePaths wasteful (optimize wasteful) := C34_partial wasteful_unique wasteful_returns

theorem walk_mem {l tr : List Op} {a c : Nat × List Nat} (h : Walk l a tr c) : ∀ o ∈ tr, o ∈ l := by
  induction h with
  | refl => simp
  | skip _ _ _ _ ih => exact ih
  | exec _ h2 _ _ ih =>
    intro o ho
    rcases List.mem_append.1 ho with h | h
    · exact ih o h
    · simp at h; subst h; exact List.mem_of_getElem? h2

theorem executes_mem {l tr : List Op} (h : Executes l tr) : ∀ o ∈ tr, o ∈ l := by
  rcases h with rfl | ⟨tr0, o, i, rs, rfl, hw, ho, -⟩
  · simp
  · intro o' ho'
    rcases List.mem_append.1 ho' with h | h
    · exact walk_mem hw o' h
    · simp at h; subst h; exact List.mem_of_getElem? ho

/-- C34 fails for programs with subroutines: a `retsub` that is not directly behind a label is
removed, and the subroutine runs into the code behind it. -/
theorem C34_false : ∃ l, UniqueLabels l ∧ TargetsDefined l ∧ ¬ SamePaths l (optimize l) := by
  refine ⟨[.branch .callsub b!"f", .int 1, .plain .returnOp, .label b!"f", .int 2, .plain .retsub], ?_, ?_, ?_⟩
  · intro n i j hi hj
    have key : ∀ {i}, DefinedAt [.branch .callsub b!"f", .int 1, .plain .returnOp, .label b!"f", .int 2, .plain .retsub] n i → i = 3 := by
      intro i hi
      have hlt : i < 6 := (List.getElem?_eq_some_iff.1 hi).1
      rcases i with _ | _ | _ | _ | _ | _ | i <;> first | rfl | (cases hi; done) | omega
    rw [key hi, key hj]
  · intro o n ho hr
    simp at ho
    rcases ho with rfl | rfl | rfl | rfl | rfl | rfl <;> cases hr
    exact ⟨3, rfl⟩
  · intro h
    have h1 := ((h [.branch .callsub b!"f", .int 2, .plain .retsub]).1).1 ⟨_, .inr ⟨[.branch .callsub b!"f", .int 2], .plain .retsub, 5, [1], rfl, ?_, rfl, by intro hc; cases hc⟩, rfl⟩
    · obtain ⟨tr, h2, h3⟩ := h1
      have h4 : Op.plain .retsub ∈ visible tr := by rw [h3]; simp
      have h5 := executes_mem h2 _ (List.mem_filter.1 h4).1
      revert h5
      decide +kernel
    · have w1 := Walk.exec (.refl (l := [.branch .callsub b!"f", .int 1, .plain .returnOp, .label b!"f", .int 2, .plain .retsub]) (a := (0, []))) rfl (by intro hc; cases hc) (.call (n := b!"f") (j := 3) rfl rfl)
      have w2 := Walk.skip w1 rfl (.label _) (.next (o := .label b!"f") rfl (noFall_nop (.label _)))
      exact Walk.exec w2 (o := .int 2) rfl (by intro hc; cases hc) (.next (o := .int 2) rfl (by intro hc; rcases hc with ⟨_, hc⟩; cases hc))

/-! ## C35 -/

/-- C35: optimising removes no label that is still referred to. -/
theorem C35 {l : List Op} (h : TargetsDefined l) : TargetsDefined (optimize l) := optimize_targets h

example : TargetsDefined wasteful := by
  intro o n ho hr
  simp [wasteful] at ho
  rcases ho with rfl | rfl | rfl | rfl | rfl | rfl | rfl | rfl | rfl | rfl | rfl <;> cases hr
  · exact ⟨5, rfl⟩
  · exact ⟨8, rfl⟩

end Teal.Props
