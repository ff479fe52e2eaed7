import Verif.Props.Program
import Verif.Props.Linter
import Verif.Props.Process2

/-!
# What the linter says about the lines of a text

C89: the rules C27 to C32 and the rule of C21, from the text to the diagnostics.
-/

namespace Teal.Props

open Teal Spec P

/-- A diagnostic of the rule is on line `k`. -/
def Reported (r : ProcessResult) (rule : LintRule) (k : Nat) : Prop :=
  ∃ d ∈ r.diagnostics, d.kind = .lint rule ∧ d.l = k

theorem program_listing {env : Env} {src : Bytes} {os : List Op} {r : ProcessResult}
    (hp : Program env.addrOk 1 (wordLines (tokens src)) os) (hr : process env src = some r) : r.listing = os := by
  obtain ⟨r', h1, h2, -⟩ := C72_program env src os hp
  rw [hr] at h1
  injection h1 with h1
  rw [h1, h2]

theorem reported_iff {env : Env} {src : Bytes} {os : List Op} {r : ProcessResult}
    (hp : Program env.addrOk 1 (wordLines (tokens src)) os) (hr : process env src = some r) (rule : LintRule) (k : Nat) :
    Reported r rule k ↔ ⟨k, rule⟩ ∈ lintErrs env.maps os := by
  have hl := program_listing hp hr
  constructor
  · rintro ⟨d, h1, h2, rfl⟩
    obtain ⟨k, h3, rfl⟩ := (lint_diag hr rule d).1 ⟨h1, h2⟩
    rw [← hl]; exact h3
  · intro h
    rw [← hl] at h
    obtain ⟨h1, h2⟩ := (lint_diag hr rule _).2 ⟨k, h, rfl⟩
    exact ⟨_, h1, h2, rfl⟩

/-- **C89** On which lines of a text that is the program `os` the linter reports something, and the labels it names: labels defined
twice, labels nothing refers to, labels that are not there, jumps that lead where the program goes
anyway, and pragmas behind instructions. -/
theorem C89_lines (env : Env) (src : Bytes) (os : List Op) (r : ProcessResult)
    (hp : Program env.addrOk 1 (wordLines (tokens src)) os) (hr : process env src = some r) (k : Nat) (n : Bytes) :
    (Reported r (.duplicateLabel n) k ↔ ∃ j, DefinedAt os n k ∧ j ≠ k ∧ DefinedAt os n j) ∧
    (Reported r (.unusedLabel n) k ↔ DefinedAt os n k ∧ ¬ ∃ i o, At os i o ∧ Refers o n) ∧
    (Reported r (.missingLabel n) k ↔ ∃ o, At os k o ∧ Refers o n ∧ ¬ ∃ j, DefinedAt os n j) ∧
    (Reported r .bJustBefore k ↔ ∃ n j, At os k (.branch .b n) ∧ k < j ∧ DefinedAt os n j ∧
      ∀ i, k < i → i < j → ∃ o, At os i o ∧ NoOp o ∧ ∀ n', ¬ DefinedAt os n' i) ∧
    (Reported r .pragmaAfterInstr k ↔ (∃ v, At os k (.pragma v)) ∧ ∃ i o, i < k ∧ At os i o ∧ (¬ NoOp o ∨ ∃ v, o = .pragma v)) := by
  refine ⟨?_, ?_, ?_, ?_, ?_⟩
  · rw [reported_iff hp hr]; exact (C27_duplicate_labels env.maps os k n).1
  · rw [reported_iff hp hr]; exact (C28_unused_labels env.maps os k n).1
  · rw [reported_iff hp hr]; exact C21_missing_rule env.maps os k n
  · rw [reported_iff hp hr]; exact C30_rule env.maps os k
  · rw [reported_iff hp hr]
    constructor
    · intro h
      obtain ⟨v, hv⟩ := C32_only_pragmas env.maps os k h
      exact ⟨⟨v, hv⟩, (C32_pragma_position env.maps os k v hv).1 h⟩
    · rintro ⟨⟨v, hv⟩, h⟩
      exact (C32_pragma_position env.maps os k v hv).2 h

/-- **C89** (partial: code behind `retsub` is missing, see `C29_false`.)  No execution gets to a line reported as unreachable, and
the lines between `b`, `return` or `err` and the next label are reported. -/
theorem C89_unreachable_partial (env : Env) (src : Bytes) (os : List Op) (r : ProcessResult)
    (hp : Program env.addrOk 1 (wordLines (tokens src)) os) (hr : process env src = some r) (k : Nat) :
    (Reported r .unreachable k → ∀ rs, ¬ Steps os (0, []) (k, rs)) ∧
    (∀ i t o, At os i t → Transfer t → i < k → At os k o → ¬ NoOp o → (∀ j n, i < j → j < k → ¬ DefinedAt os n j) →
      Reported r .unreachable k) := by
  refine ⟨fun h => C29_unreachable_sound env.maps os k ((reported_iff hp hr _ k).1 h), fun i t o h1 h2 h3 h4 h5 h6 => ?_⟩
  exact (reported_iff hp hr _ k).2 (C29_unreachable_complete_partial env.maps os i k t o h1 h2 h3 h4 h5 h6)

/-- **C89** A loop reported as infinite is never left: whoever is on a line from the label to the jump
stays there and gets to no instruction that ends the program; and every jump back to the nearest label
of that name, with no way out in between, is reported. -/
theorem C89_loops (env : Env) (src : Bytes) (os : List Op) (r : ProcessResult)
    (hp : Program env.addrOk 1 (wordLines (tokens src)) os) (hr : process env src = some r) (k : Nat) :
    (Reported r .infiniteLoop k → ∃ n j, At os k (.branch .b n) ∧ DefinedAt os n j ∧ j < k ∧
      ∀ i rs c, j ≤ i → i ≤ k → Steps os (i, rs) c → j ≤ c.1 ∧ c.1 ≤ k ∧ ∀ o, At os c.1 o → ¬ Halts o) ∧
    (∀ n j, At os k (.branch .b n) → j < k → DefinedAt os n j → (∀ i, j < i → i < k → ¬ DefinedAt os n i) →
      (∀ i, j ≤ i → i ≤ k → ¬ Exit os j k i) → Reported r .infiniteLoop k) := by
  refine ⟨fun h => C31_infinite_loop env.maps os k ((reported_iff hp hr _ k).1 h), fun n j h1 h2 h3 h4 h5 => ?_⟩
  exact (reported_iff hp hr _ k).2 ((C31_rule env.maps os k).2 ⟨n, j, h1, h2, h3, h4, h5⟩)

theorem program_noWords {env : Env} {src : Bytes} {os : List Op} (hp : Program env.addrOk 1 (wordLines (tokens src)) os) {k : Nat} {o : Op}
    (ho : At os k o) (hne : o ≠ .empty) : words (tokens src) k ≠ [] := by
  intro hw
  have hn : ∀ (ver : Nat) (ls : List (List Bytes)) (os : List Op), Program env.addrOk ver ls os → ∀ (k : Nat) (o : Op), os[k]? = some o →
      ls[k]? = some [] → o = .empty := by
    intro ver ls os h
    induction h with
    | nil => intro k o h; simp at h
    | blank ver ls os h ih =>
      intro k o h1 h2
      cases k with
      | zero => simp at h1; exact h1.symm
      | succ k => exact ih k o h1 h2
    | label ver n hn ls os h ih =>
      intro k o h1 h2
      cases k with
      | zero => simp at h2
      | succ k => exact ih k o h1 h2
    | version ver s n hs h1 h2 ls os h ih =>
      intro k o h1 h2
      cases k with
      | zero => simp at h2
      | succ k => exact ih k o h1 h2
    | instr ver w ws o hw ho ls os h ih =>
      intro k o h1 h2
      cases k with
      | zero => simp at h2
      | succ k => exact ih k o h1 h2
    | gitxna ver x y z t f i hx ht hy hz ls os h ih =>
      intro k o h1 h2
      cases k with
      | zero => simp at h2
      | succ k => exact ih k o h1 h2
  have hlen : ∀ (ver : Nat) (ls : List (List Bytes)) (os : List Op), Program env.addrOk ver ls os → ls.length = os.length := by
    intro ver ls os h
    induction h <;> simp_all
  have hk : k < (wordLines (tokens src)).length := by
    rw [hlen _ _ _ hp]; exact (List.getElem?_eq_some_iff.1 ho).1
  refine hne (hn _ _ _ hp k o ho ?_)
  unfold wordLines at hk ⊢
  rw [List.length_map, List.length_range] at hk
  rw [List.getElem?_map, List.getElem?_range hk, Option.map_some, hw]
  rfl

/-- **C89** A diagnostic of the linter covers the words of its line, from the first to the last. -/
theorem C89_covers (env : Env) (src : Bytes) (os : List Op) (r : ProcessResult)
    (hp : Program env.addrOk 1 (wordLines (tokens src)) os) (hr : process env src = some r) (d : Diag) (hd : d ∈ r.diagnostics)
    (rule : LintRule) (hk : d.kind = .lint rule) :
    ∃ w w', (words (tokens src) d.l).head? = some w ∧ (words (tokens src) d.l).getLast? = some w' ∧ d.b = w.b ∧ d.e = w'.e := by
  obtain ⟨k, he, rfl⟩ := (lint_diag hr rule d).1 ⟨hd, hk⟩
  rw [program_listing hp hr] at he
  have hne : ∃ o, At os k o ∧ o ≠ .empty := by
    cases rule with
    | duplicateLabel n =>
      obtain ⟨_, h, -⟩ := (C27_duplicate_labels env.maps os k n).1.1 he
      exact ⟨_, h, by simp⟩
    | unusedLabel n =>
      obtain ⟨h, -⟩ := (C28_unused_labels env.maps os k n).1.1 he
      exact ⟨_, h, by simp⟩
    | unreachable =>
      rw [lintErrs_rule] at he
      obtain ⟨-, o, h1, h2, -⟩ := (mem_lintUnreachable os _).1 he
      exact ⟨o, h1, by rintro rfl; cases h2⟩
    | bJustBefore =>
      obtain ⟨n, _, h, -⟩ := (C30_rule env.maps os k).1 he
      exact ⟨_, h, by simp⟩
    | missingLabel n =>
      obtain ⟨o, h, hr, -⟩ := (C21_missing_rule env.maps os k n).1 he
      exact ⟨_, h, by rintro rfl; cases hr⟩
    | infiniteLoop =>
      obtain ⟨n, _, h, -⟩ := (C31_rule env.maps os k).1 he
      exact ⟨_, h, by simp⟩
    | pragmaAfterInstr =>
      obtain ⟨v, h⟩ := C32_only_pragmas env.maps os k he
      exact ⟨_, h, by simp⟩
  obtain ⟨o, ho, hne⟩ := hne
  have hw := program_noWords hp ho hne
  have hlt : lineTokens (tokens src) k = words (tokens src) k := by unfold lineTokens; rw [if_neg hw]
  obtain ⟨w, hw1⟩ : ∃ w, (words (tokens src) k).head? = some w := by
    cases h : words (tokens src) k with
    | nil => exact absurd h hw
    | cons a l => exact ⟨a, rfl⟩
  refine ⟨w, (words (tokens src) k).getLast hw, hw1, List.getLast?_eq_some_getLast hw, ?_, ?_⟩
  · show lineBegin (lineTokens (tokens src) k) = _
    rw [hlt, lineBegin, hw1]; rfl
  · show lineEnd (lineTokens (tokens src) k) = _
    rw [hlt, lineEnd, List.getLast?_eq_some_getLast hw]; rfl

/-- A text with something to report under every rule. -/
def lintSample : Bytes := b!"x:\nx:\nerr\npop\nb y\ny:\nz:\nb z\n#pragma version 2\nb q"

example : Program sampleEnv.addrOk 1 (wordLines (tokens lintSample))
    [.label b!"x", .label b!"x", .plain .err, .plain .pop, .branch .b b!"y", .label b!"y", .label b!"z", .branch .b b!"z", .pragma 2, .branch .b b!"q"] := by
  have h : wordLines (tokens lintSample) = [[b!"x" ++ [58]], [b!"x" ++ [58]], [b!"err"], [b!"pop"], [b!"b", b!"y"], [b!"y" ++ [58]], [b!"z" ++ [58]],
    [b!"b", b!"z"], [b!"#pragma", b!"version", b!"2"], [b!"b", b!"q"]] := by decide +kernel
  rw [h]
  refine .label 1 _ (by decide) _ _ (.label 1 _ (by decide) _ _ ?_)
  refine .instr 1 _ _ _ (by decide) (.plain _ _ (by decide)) _ _ (.instr 1 _ _ _ (by decide) (.plain _ _ (by decide)) _ _ ?_)
  refine .instr 1 _ _ _ (by decide) (.branch _ _ .b (by decide)) _ _ (.label 1 _ (by decide) _ _ (.label 1 _ (by decide) _ _ ?_))
  refine .instr 1 _ _ _ (by decide) (.branch _ _ .b (by decide)) _ _ ?_
  refine .version 1 _ 2 ((C11_int_literal _ _).1 (by decide)).1 (by decide) (by decide) _ _ ?_
  exact .instr 2 _ _ _ (by decide) (.branch _ _ .b (by decide)) _ _ (.nil 2)

example : (process sampleEnv lintSample).map (fun r => r.diagnostics.filterMap fun d => match d.kind with | .lint w => some (w, d.l) | _ => none) =
    some [(.duplicateLabel b!"x", 0), (.duplicateLabel b!"x", 1), (.unusedLabel b!"x", 0), (.unusedLabel b!"x", 1), (.unreachable, 3), (.unreachable, 4), (.unreachable, 9),
      (.bJustBefore, 4), (.missingLabel b!"q", 9), (.infiniteLoop, 7), (.pragmaAfterInstr, 8)] := by
  decide +kernel

end Teal.Props
