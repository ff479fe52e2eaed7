import Verif.Lemmas.Linter

/-!
# Properties C27–C32: the linter

A program is a list of instructions; `lintErrs o l` are the errors the linter reports for the
program `l` when Go visits maps in the order `o`.
-/

namespace Teal.Props
open Spec

/-- A program used as an example: a duplicate label, an unused one, a missing one, dead code, a
redundant branch, an endless loop and a late pragma. -/
def sampleProgram : List Op :=
  [.branch .bz b!"a", .label b!"a", .label b!"a", .label b!"c", .branch .b b!"d", .plain .pop,
   .empty, .label b!"d", .plain .dup, .branch .b b!"d", .branch .b b!"e", .label b!"e",
   .branch .bnz b!"missing", .pragma 5, .plain .returnOp]

/-- Go's map order in the example. -/
def sampleOrder : MapOrder := ⟨fun _ ks => ks, fun _ _ => .refl _⟩

/-- **C27** The duplicate-label rule reports precisely the definitions of names defined more than
once, each of them once, and names them. -/
theorem C27_duplicate_labels (o : MapOrder) (l : List Op) (i : Nat) (n : Bytes) :
    (⟨i, .duplicateLabel n⟩ ∈ lintErrs o l ↔
      ∃ k, DefinedAt l n i ∧ k ≠ i ∧ DefinedAt l n k) ∧
    (lintErrs o l).count ⟨i, .duplicateLabel n⟩ ≤ 1 := by
  constructor
  · rw [lintErrs_rule]
    simp only [mem_lintDuplicate, LintRule.duplicateLabel.injEq]
    constructor
    · rintro ⟨m, k, rfl, h⟩; exact ⟨k, h⟩
    · rintro ⟨k, h⟩; exact ⟨n, k, rfl, h⟩
  · have h : ∀ (m : List LintErr), (∀ e ∈ m, e.rule ≠ .duplicateLabel n) →
        m.count ⟨i, .duplicateLabel n⟩ = 0 := by
      intro m hm
      exact List.count_eq_zero.2 (fun hmem => hm _ hmem rfl)
    simp only [lintErrs, List.count_append]
    rw [h (lintUnused o l) (fun e he => by obtain ⟨_, h, _⟩ := (mem_lintUnused o l e).1 he; rw [h]; simp),
      h (lintUnreachable l) (fun e he => by rw [((mem_lintUnreachable l e).1 he).1]; simp),
      h (lintBJustBefore l) (fun e he => by rw [((mem_lintBJustBefore l e).1 he).1]; simp),
      h (lintMissing o l) (fun e he => by obtain ⟨_, _, h, _⟩ := (mem_lintMissing o l e).1 he; rw [h]; simp),
      h (lintLoops l) (fun e he => by rw [((mem_lintLoops l e).1 he).1]; simp),
      h (lintPragma l) (fun e he => by rw [((mem_lintPragma l e).1 he).1]; simp)]
    have := List.nodup_iff_count_le_one.1 (lintDuplicate_nodup o l) ⟨i, .duplicateLabel n⟩
    omega

example : ⟨1, .duplicateLabel b!"a"⟩ ∈ lintErrs sampleOrder sampleProgram :=
  (C27_duplicate_labels _ _ _ _).1.2 ⟨2, rfl, by decide, rfl⟩

/-- **C28** The unused-label rule reports precisely the label definitions whose name no instruction
refers to, each of them once, and names them. -/
theorem C28_unused_labels (o : MapOrder) (l : List Op) (i : Nat) (n : Bytes) :
    (⟨i, .unusedLabel n⟩ ∈ lintErrs o l ↔
      DefinedAt l n i ∧ ¬ ∃ k p, At l k p ∧ Refers p n) ∧
    (lintErrs o l).count ⟨i, .unusedLabel n⟩ ≤ 1 := by
  constructor
  · rw [lintErrs_rule]
    simp only [mem_lintUnused, LintRule.unusedLabel.injEq]
    constructor
    · rintro ⟨m, rfl, h1, h2⟩
      exact ⟨h1, fun ⟨k, p, hp, hr⟩ => h2 k p hp hr⟩
    · rintro ⟨h1, h2⟩
      exact ⟨n, rfl, h1, fun k p hp hr => h2 ⟨k, p, hp, hr⟩⟩
  · have h : ∀ (m : List LintErr), (∀ e ∈ m, e.rule ≠ .unusedLabel n) →
        m.count ⟨i, .unusedLabel n⟩ = 0 := by
      intro m hm
      exact List.count_eq_zero.2 (fun hmem => hm _ hmem rfl)
    simp only [lintErrs, List.count_append]
    rw [h (lintDuplicate o l) (fun e he => by obtain ⟨_, _, h, _⟩ := (mem_lintDuplicate o l e).1 he; rw [h]; simp),
      h (lintUnreachable l) (fun e he => by rw [((mem_lintUnreachable l e).1 he).1]; simp),
      h (lintBJustBefore l) (fun e he => by rw [((mem_lintBJustBefore l e).1 he).1]; simp),
      h (lintMissing o l) (fun e he => by obtain ⟨_, _, h, _⟩ := (mem_lintMissing o l e).1 he; rw [h]; simp),
      h (lintLoops l) (fun e he => by rw [((mem_lintLoops l e).1 he).1]; simp),
      h (lintPragma l) (fun e he => by rw [((mem_lintPragma l e).1 he).1]; simp)]
    have := List.nodup_iff_count_le_one.1 (lintUnused_nodup o l) ⟨i, .unusedLabel n⟩
    omega

example : ⟨3, .unusedLabel b!"c"⟩ ∈ lintErrs sampleOrder sampleProgram := by decide +kernel
example : ⟨1, .unusedLabel b!"a"⟩ ∉ lintErrs sampleOrder sampleProgram := by decide +kernel

/-- **C28** The redundant lines offered for removal are the unused labels, with their names, and the
branches the redundant-branch rule reports. -/
theorem C28_redundant_lines (o : MapOrder) (l : List Op) (i : Nat) (n : Bytes) :
    (.label i n ∈ lintReds o l ↔ ⟨i, .unusedLabel n⟩ ∈ lintErrs o l) ∧
    (.b i ∈ lintReds o l ↔ ⟨i, .bJustBefore⟩ ∈ lintErrs o l) := by
  constructor
  · rw [(C28_unused_labels o l i n).1]
    simp only [lintReds, List.mem_append, List.mem_map, reduceCtorEq, and_false, exists_false,
      or_false, RedundantLine.label.injEq]
    constructor
    · rintro ⟨⟨i', n'⟩, h, rfl, rfl⟩
      obtain ⟨h1, h2⟩ := (mem_unusedLabels o l _ _).1 h
      exact ⟨h1, fun ⟨k, p, hp, hr⟩ => h2 k p hp hr⟩
    · rintro ⟨h1, h3⟩
      exact ⟨(i, n), (mem_unusedLabels o l _ _).2 ⟨h1, fun k p hp hr => h3 ⟨k, p, hp, hr⟩⟩, rfl, rfl⟩
  · rw [lintErrs_rule]
    simp [lintReds, lintBJustBefore]

example : RedundantLine.label 3 b!"c" ∈ lintReds sampleOrder sampleProgram := by decide +kernel

/-- Instructions the linter takes for unconditional transfers. -/
inductive Transfer : Op → Prop
  | b (n) : Transfer (.branch .b n)
  | ret : Transfer (.plain .returnOp)
  | err : Transfer (.plain .err)

/-- **C29** An instruction reported as unreachable is never executed: no run of the program that
starts at the first line with no call in progress gets there. -/
theorem C29_unreachable_sound (o : MapOrder) (l : List Op) (i : Nat)
    (h : ⟨i, .unreachable⟩ ∈ lintErrs o l) (rs : List Nat) : ¬ Steps l (0, []) (i, rs) := by
  intro hs
  rw [lintErrs_rule] at h
  obtain ⟨-, op, ho, hn, hd⟩ := (mem_lintUnreachable l _).1 h
  have hl := (live_steps hs ⟨Or.inl (by simp [isDead, deadFlag]), by simp⟩).1
  rcases hl with h1 | ⟨n, h1, -⟩
  · simp only at h1 hd
    rw [h1] at hd; cases hd
  · simp only at h1 ho
    rw [h1] at ho
    obtain rfl : Op.label n = op := by simpa using ho
    cases hn

/-- **C29** (partial: `retsub` is not among the transfers) Every instruction between an
unconditional transfer and the next label is reported. -/
theorem C29_unreachable_complete_partial (o : MapOrder) (l : List Op) (i j : Nat) (t p : Op)
    (ht : At l i t) (htr : Transfer t) (hij : i < j) (hp : At l j p) (hnop : ¬ NoOp p)
    (hlab : ∀ k n, i < k → k < j → ¬ DefinedAt l n k) :
    ⟨j, .unreachable⟩ ∈ lintErrs o l := by
  rw [lintErrs_rule]
  refine (mem_lintUnreachable l _).2 ⟨rfl, p, hp, ?_, ?_⟩
  · by_contra hc
    exact hnop ((isNop_iff p).1 (by simpa using hc))
  · have hlen : j < l.length := (List.getElem?_eq_some_iff.1 hp).1
    have := dead_after l i t ht (by cases htr <;> rfl) (j - (i + 1))
      (fun k n h1 h2 => hlab k n h1 (by omega)) (by omega)
    rwa [show i + 1 + (j - (i + 1)) = j by omega] at this

/-- The full completeness claim of C29 fails for code behind `retsub`, which never continues with
the next instruction either: nothing is reported, although the line cannot be executed. -/
theorem C29_false : ∃ l : List Op, At l 0 (.plain .retsub) ∧ At l 1 (.plain .pop) ∧
    NoFallThrough (.plain .retsub) ∧ (∀ o, ⟨1, .unreachable⟩ ∉ lintErrs o l) ∧
    ∀ rs, ¬ Steps l (0, []) (1, rs) := by
  refine ⟨[.plain .retsub, .plain .pop], rfl, rfl, .retsub, ?_, ?_⟩
  · intro o h
    rw [lintErrs_rule] at h
    have : LintErr.mk 1 .unreachable ∉ lintUnreachable [.plain .retsub, .plain .pop] := by
      decide +kernel
    exact this h
  · intro rs h
    have key : ∀ c d, Steps [.plain .retsub, .plain .pop] c d → c = (0, []) → d = (0, []) := by
      intro c d h
      induction h with
      | refl => exact id
      | tail _ hs ih =>
        intro hc
        rw [ih hc] at hs
        cases hs with
        | next ho hn => cases ho; exact absurd .retsub hn
        | jump ho hr _ _ => cases ho; cases hr
        | call ho _ => cases ho
    have := key _ _ h rfl
    cases this

example : ⟨5, .unreachable⟩ ∈ lintErrs sampleOrder sampleProgram :=
  C29_unreachable_complete_partial _ _ 4 5 _ (.plain .pop) rfl (.b _) (by decide) rfl
    (fun h => by cases h) (fun k n h1 h2 => by omega)

/-- Falling through do-nothing lines. -/
theorem steps_noops (l : List Op) (rs : List Nat) (i d : Nat)
    (h : ∀ k, i ≤ k → k < i + d → ∃ o, At l k o ∧ NoOp o) : Steps l (i, rs) (i + d, rs) := by
  induction d with
  | zero => exact .refl _
  | succ d ih =>
    refine .tail (ih (fun k h1 h2 => h k h1 (by omega))) ?_
    obtain ⟨o, ho, hn⟩ := h (i + d) (by omega) (by omega)
    refine .next ho ?_
    intro hc
    cases hn <;> cases hc <;> rename_i hh <;> cases hh

/-- **C30** The redundant-branch rule reports exactly the branches `b n` that are followed, with
only empty lines, comments and pragmas in between, by the label `n`. -/
theorem C30_rule (o : MapOrder) (l : List Op) (i : Nat) :
    ⟨i, .bJustBefore⟩ ∈ lintErrs o l ↔
      ∃ n j, At l i (.branch .b n) ∧ i < j ∧ DefinedAt l n j ∧
        ∀ k, i < k → k < j → ∃ p, At l k p ∧ NoOp p ∧ ∀ n', ¬ DefinedAt l n' k := by
  rw [lintErrs_rule]
  simp only [mem_lintBJustBefore, true_and]
  constructor
  · rintro ⟨n, j, h1, h2, h3, h4⟩
    refine ⟨n, j, h1, h2, h3, fun k a b => ?_⟩
    obtain ⟨p, hp, hn, hne⟩ := h4 k a b
    refine ⟨p, hp, hn, fun n' hd => ?_⟩
    unfold DefinedAt At at hd
    rw [hp] at hd
    exact hne n' (by simpa using hd)
  · rintro ⟨n, j, h1, h2, h3, h4⟩
    refine ⟨n, j, h1, h2, h3, fun k a b => ?_⟩
    obtain ⟨p, hp, hn, hne⟩ := h4 k a b
    refine ⟨p, hp, hn, fun n' hd => ?_⟩
    subst hd
    exact hne n' hp

/-- **C30** A branch reported as just before its target transfers control to where fall-through
would: if the label is defined once, then the branch leads to a single place, and going on with
the next line instead gets to the same place. -/
theorem C30_redundant_branch (o : MapOrder) (l : List Op) (i : Nat) (n : Bytes)
    (h : ⟨i, .bJustBefore⟩ ∈ lintErrs o l) (hb : At l i (.branch .b n))
    (huniq : ∀ j k, DefinedAt l n j → DefinedAt l n k → j = k) (rs : List Nat) :
    ∃ j, Step l (i, rs) (j, rs) ∧ (∀ c, Step l (i, rs) c → c = (j, rs)) ∧
      Steps l (i + 1, rs) (j, rs) := by
  obtain ⟨n', j, h1, h2, h3, h4⟩ := (C30_rule o l i).1 h
  unfold At at hb h1
  rw [hb] at h1
  obtain rfl : n = n' := by simpa using h1
  refine ⟨j, .jump hb (.branch _ _) (by simp) h3, ?_, ?_⟩
  · intro c hc
    cases hc with
    | next ho hn =>
      unfold At at ho; rw [hb] at ho
      obtain rfl := Option.some.inj ho
      exact absurd (.b _) hn
    | jump ho hr _ hd =>
      unfold At at ho; rw [hb] at ho
      obtain rfl := Option.some.inj ho
      cases hr
      rw [huniq _ _ hd h3]
    | call ho _ => unfold At at ho; rw [hb] at ho; cases ho
    | ret ho => unfold At at ho; rw [hb] at ho; cases ho
  · have := steps_noops l rs (i + 1) (j - (i + 1)) (fun k a b => by
      obtain ⟨p, hp, hn, -⟩ := h4 k (by omega) (by omega)
      exact ⟨p, hp, hn⟩)
    rwa [show i + 1 + (j - (i + 1)) = j by omega] at this

example : ⟨10, .bJustBefore⟩ ∈ lintErrs sampleOrder sampleProgram := by decide +kernel

/-- **C31** The infinite-loop rule reports exactly the jumps back to the nearest preceding label of
that name for which nothing from the label to the jump is an exit. -/
theorem C31_rule (o : MapOrder) (l : List Op) (i : Nat) :
    ⟨i, .infiniteLoop⟩ ∈ lintErrs o l ↔
      ∃ n j, At l i (.branch .b n) ∧ j < i ∧ DefinedAt l n j ∧
        (∀ k, j < k → k < i → ¬ DefinedAt l n k) ∧ ∀ k, j ≤ k → k ≤ i → ¬ Exit l j i k := by
  rw [lintErrs_rule]
  simp only [mem_lintLoops, true_and, canEscape_false_iff]
  constructor
  · rintro ⟨n, j, h1, h2, h3, h4, h5⟩
    refine ⟨n, j, h1, h2, h3, h4, fun k a b hx => ?_⟩
    cases hx with
    | ends p hp hh =>
      have := (h5 k p a b hp).1
      rw [(isTerminator_iff p).2 (.inl hh)] at this; cases this
    | returns hp =>
      have := (h5 k _ a b hp).1
      cases this
    | leaves rs c hs hc =>
      cases hs with
      | next ho hn =>
        refine hc ⟨by show j ≤ k + 1; omega, ?_⟩
        show k + 1 ≤ i
        by_contra hki
        obtain rfl : k = i := by omega
        unfold At at ho; rw [h1] at ho
        obtain rfl := Option.some.inj ho
        exact hn (.b _)
      | jump ho hr _ hd => exact hc ((h5 k _ a b ho).2 _ _ hr hd)
      | call ho hd => exact hc ((h5 k _ a b ho).2 _ _ (.branch _ _) hd)
      | ret ho =>
        have := (h5 k _ a b ho).1
        cases this
  · rintro ⟨n, j, h1, h2, h3, h4, h5⟩
    refine ⟨n, j, h1, h2, h3, h4, fun k p a b hp => ⟨?_, fun m idx hr hd => ?_⟩⟩
    · by_contra hc
      rcases (isTerminator_iff p).1 (by simpa using hc) with hh | rfl
      · exact h5 k a b (.ends p hp hh)
      · exact h5 k a b (.returns hp)
    · by_contra hc
      by_cases hcall : p = .branch .callsub m
      · subst hcall
        exact h5 k a b (.leaves [] _ (.call hp hd) hc)
      · exact h5 k a b (.leaves [] _ (.jump hp hr hcall hd) hc)

/-- **C31** A loop reported as infinite cannot be left by any execution: whoever is in it stays
there, and never reaches an instruction that ends the program. -/
theorem C31_infinite_loop (o : MapOrder) (l : List Op) (i : Nat)
    (h : ⟨i, .infiniteLoop⟩ ∈ lintErrs o l) :
    ∃ n j, At l i (.branch .b n) ∧ DefinedAt l n j ∧ j < i ∧
      ∀ k rs c, j ≤ k → k ≤ i → Steps l (k, rs) c →
        j ≤ c.1 ∧ c.1 ≤ i ∧ ∀ p, At l c.1 p → ¬ Halts p := by
  obtain ⟨n, j, h1, h2, h3, -, h5⟩ := (C31_rule o l i).1 h
  refine ⟨n, j, h1, h3, h2, fun k rs c a b hs => ?_⟩
  have key : j ≤ c.1 ∧ c.1 ≤ i := by
    generalize hk : (k, rs) = s at hs
    induction hs with
    | refl => subst hk; exact ⟨a, b⟩
    | @tail y z h1 h2 ih =>
      by_contra hc
      exact h5 y.1 ih.1 ih.2 (.leaves y.2 z h2 hc)
  exact ⟨key.1, key.2, fun p hp hh => h5 c.1 key.1 key.2 (.ends p hp hh)⟩

example : ⟨9, .infiniteLoop⟩ ∈ lintErrs sampleOrder sampleProgram := by decide +kernel

/-- **C32** A version pragma is reported exactly when some instruction or pragma precedes it. -/
theorem C32_pragma_position (o : MapOrder) (l : List Op) (i v : Nat) (hi : At l i (.pragma v)) :
    ⟨i, .pragmaAfterInstr⟩ ∈ lintErrs o l ↔
      ∃ k p, k < i ∧ At l k p ∧ (¬ NoOp p ∨ ∃ v', p = .pragma v') := by
  rw [lintErrs_rule]
  simp only [mem_lintPragma, true_and]
  constructor
  · rintro ⟨-, -, h⟩; exact h
  · intro h; exact ⟨v, hi, h⟩

/-- **C32** Nothing but version pragmas is reported by the rule. -/
theorem C32_only_pragmas (o : MapOrder) (l : List Op) (i : Nat)
    (h : ⟨i, .pragmaAfterInstr⟩ ∈ lintErrs o l) : ∃ v, At l i (.pragma v) := by
  rw [lintErrs_rule] at h
  obtain ⟨-, v, hv, -⟩ := (mem_lintPragma l _).1 h
  exact ⟨v, hv⟩

example : ⟨13, .pragmaAfterInstr⟩ ∈ lintErrs sampleOrder sampleProgram := by decide +kernel

/-- **C21** The missing-label rule reports exactly the instructions that refer to a label no line
defines, and names the label. -/
theorem C21_missing_rule (o : MapOrder) (l : List Op) (i : Nat) (n : Bytes) :
    ⟨i, .missingLabel n⟩ ∈ lintErrs o l ↔
      ∃ p, At l i p ∧ Refers p n ∧ ¬ ∃ k, DefinedAt l n k := by
  rw [lintErrs_rule]
  simp only [mem_lintMissing, LintRule.missingLabel.injEq]
  constructor
  · rintro ⟨p, m, rfl, h1, h2, h3⟩
    exact ⟨p, h1, h2, fun ⟨k, hk⟩ => h3 k hk⟩
  · rintro ⟨p, h1, h2, h3⟩
    exact ⟨p, n, rfl, h1, h2, fun k hk => h3 ⟨k, hk⟩⟩

example : ⟨12, .missingLabel b!"missing"⟩ ∈ lintErrs sampleOrder sampleProgram := by decide +kernel

end Teal.Props
