import Verif.Lemmas.LineEdit
import Verif.Props.Hints

/-!
# Quick fixes for lines, labels and versions

C79: which of these fixes are offered.
-/

namespace Teal.Lsp
open Teal Teal.Spec Teal.Lsp.Spec Teal.Props

/-- The entries for versions, line by line. -/
theorem versions_mem {env : Env} {src : Bytes} {r : ProcessResult} (h : process env src = some r) {v : RequiredVersion} (hv : v ∈ r.versions) :
    ∃ k w w', (words (tokens src) k).head? = some w ∧ (words (tokens src) k).getLast? = some w' ∧ v.l = k ∧ v.b = w.b ∧ v.e = w'.e := by
  obtain ⟨os, hr, ha⟩ := process_run h
  obtain ⟨lds, -, -, -, -, -, -, -, hvers, -⟩ := assemble_eq ha
  rw [hvers] at hv
  obtain ⟨o, ho, hov⟩ := List.mem_filterMap.1 hv
  obtain ⟨j, hj⟩ := List.mem_iff_getElem?.1 ho
  have hjlt : j < lineCount (tokens src) := by
    have := (List.getElem?_eq_some_iff.1 hj).1
    rw [hr.length, linesOf_length] at this
    exact this
  obtain ⟨o', ho', -, hf⟩ := hr.get j _ ((linesOf_get src j _).2 ⟨hjlt, rfl⟩)
  rw [hj] at ho'
  injection ho' with ho'
  subst ho'
  rw [hf.ver] at hov
  cases hi : instrOf (lineTokens (readTokens src).1 j) with
  | none => rw [hi] at hov; cases hov
  | some te =>
    rw [hi] at hov
    simp only at hov
    obtain ⟨hu, hu'⟩ := instrOf_words.1 hi
    split at hov
    · injection hov with hov
      subst hov
      have hne : words (tokens src) j ≠ [] := by intro h; rw [h] at hu; cases hu
      have hlt : lineTokens (readTokens src).1 j = words (tokens src) j := if_neg hne
      obtain ⟨w', hw'⟩ : ∃ w', (words (tokens src) j).getLast? = some w' := by
        cases h : (words (tokens src) j).getLast? with
        | none => exact absurd (List.getLast?_eq_none_iff.1 h) hne
        | some w => exact ⟨w, rfl⟩
      refine ⟨j, te.1, w', hu, hw', ?_, ?_, ?_⟩
      · exact (mem_words.1 (List.mem_of_mem_head? hu)).2.1
      · dsimp only; rw [hlt, lineBegin, hu]; rfl
      · dsimp only; rw [hlt, lineEnd, hw']; rfl
    · cases hov

theorem head_op {env : Env} {src : Bytes} {r : ProcessResult} (h : process env src = some r) {v : RequiredVersion} (hv : v ∈ r.versions) {w : Token}
    (hw : (words (tokens src) v.l).head? = some w) : ∃ e, opsGet w.v = some e := by
  obtain ⟨os, hr, ha⟩ := process_run h
  obtain ⟨lds, -, -, -, -, -, -, -, hvers, -⟩ := assemble_eq ha
  rw [hvers] at hv
  obtain ⟨o, ho, hov⟩ := List.mem_filterMap.1 hv
  obtain ⟨j, hj⟩ := List.mem_iff_getElem?.1 ho
  have hjlt : j < lineCount (tokens src) := by
    have := (List.getElem?_eq_some_iff.1 hj).1
    rw [hr.length, linesOf_length] at this
    exact this
  obtain ⟨o', ho', -, hf⟩ := hr.get j _ ((linesOf_get src j _).2 ⟨hjlt, rfl⟩)
  rw [hj] at ho'
  injection ho' with ho'
  subst ho'
  rw [hf.ver] at hov
  cases hi : instrOf (lineTokens (readTokens src).1 j) with
  | none => rw [hi] at hov; cases hov
  | some te =>
    rw [hi] at hov
    simp only at hov
    obtain ⟨hu, hu'⟩ := instrOf_words.1 hi
    split at hov
    · injection hov with hov
      have hl : v.l = j := by rw [← hov]; exact (mem_words.1 (List.mem_of_mem_head? hu)).2.1
      rw [hl, hu] at hw
      cases hw
      exact ⟨_, hu'⟩
    · cases hov

/-- A version is in force on every line. -/
theorem version_exists {env : Env} {src : Bytes} {r : ProcessResult} (h : process env src = some r) {k : Nat} (hk : k ≤ lineCount (tokens src)) :
    ∃ V, VersionAt (tokens src) k V := by
  obtain ⟨os, hr, -⟩ := process_run h
  exact ⟨_, (carry_version env.addrOk src os hr k hk _).2 rfl⟩

theorem sig_exists (ts : List Token) (k : Nat) : ∃ sig : Bool, sig = true ↔ SigAt ts k := by
  by_cases h : SigAt ts k
  · exact ⟨true, by simp [h]⟩
  · exact ⟨false, by simp [h]⟩

theorem overlaps_iff {rg : Rg} {l b e : Nat} : Overlaps rg.range ⟨l, b, l, e⟩ = true ↔
    rg.start.character ≤ e ∧ b ≤ rg.stop.character ∧ rg.start.line ≤ l ∧ l ≤ rg.stop.line := by
  rw [Overlaps, Bool.and_eq_true, Bool.and_eq_true, Bool.and_eq_true]
  constructor
  · rintro ⟨⟨⟨h1, h2⟩, h3⟩, h4⟩
    exact ⟨of_decide_eq_true h1, of_decide_eq_true h2, of_decide_eq_true h3, of_decide_eq_true h4⟩
  · rintro ⟨h1, h2, h3, h4⟩
    exact ⟨⟨⟨decide_eq_true h1, decide_eq_true h2⟩, decide_eq_true h3⟩, decide_eq_true h4⟩

end Teal.Lsp

namespace Teal.Props
open Teal Teal.Spec Teal.Lsp Teal.Lsp.Spec

/-- **C79** (partial: the version of `args` is not taken from the documentation, and that no fix for a
label or a version is missing is shown for ranges on one line; see `C79_false`.)  The fixes offered are,
to remove a line: the lines of the range which the program can do without; to create a label: those that
operands in the range refer to and that are not there; to change the version: to those that instructions
in the range need. -/
theorem C79_partial (h : Host) (ms : List (Choice × Msg)) (u src : Bytes) (rg : Rg) (a : Result)
    (ha : Answered h ms u src (.codeAction rg) a) (env : Env) (henv : env.addrOk = h.addrOk) (r : ProcessResult)
    (hr : process env src = some r) : ∃ cs, a = .codeActions cs ∧
    (∀ (u' : Bytes) (l : Int), .lineRemove u' l ∈ cs.map (·.command) ↔ u' = u ∧ ∃ k : Nat, l = k ∧ Covers rg k ∧ Dispensable r.listing k) ∧
    (∀ u' n, .labelCreate u' n ∈ cs.map (·.command) → u' = u ∧ ¬ DefinesLabel src n ∧
      ∃ t, t ∈ labelOperands (words (tokens src) t.l) ∧ t.v = n ∧ Meets rg t) ∧
    (∀ u' v, .versionUpdate u' v ∈ cs.map (·.command) → u' = u ∧ ∃ k w, (words (tokens src) k).head? = some w ∧ MeetsLine rg (tokens src) k ∧
      (w.v ≠ b!"args" → Needs (tokens src) k v)) ∧
    (∀ u' n, .labelRemove u' n ∉ cs.map (·.command)) ∧
    (rg.start.line = rg.stop.line →
      (∀ t, t ∈ labelOperands (words (tokens src) t.l) → Meets rg t → ¬ DefinesLabel src t.v → .labelCreate u t.v ∈ cs.map (·.command)) ∧
      ∀ k v w, (words (tokens src) k).head? = some w → w.v ≠ b!"args" → MeetsLine rg (tokens src) k → Needs (tokens src) k v →
        .versionUpdate u v ∈ cs.map (·.command)) := by
  obtain ⟨ch, mp, r', hr', hans⟩ := answered ha
  simp only [answer] at hans
  obtain ⟨cs, hcs, rfl⟩ := Option.map_eq_some_iff.1 hans
  unfold codeActions at hcs
  obtain ⟨ps, hps, rfl⟩ := Option.map_eq_some_iff.1 hcs
  obtain ⟨e1, -, -, e4, e5, e6, -⟩ := process_same henv hr hr'
  refine ⟨_, rfl, ?_, ?_, ?_, ?_, ?_⟩
  · intro u' l
    simp only [List.map_append, List.map_map, Function.comp_def, List.mem_append, List.mem_map, List.mem_filter, reduceCtorEq, and_false, exists_false, or_false, Command.lineRemove.injEq]
    rw [process_redundants hr', ← e1]
    constructor
    · rintro ⟨d, ⟨hd, hrg⟩, rfl, hdl⟩
      obtain ⟨k, h1, h2⟩ := (redundant_iff mp r.listing d.line).1 ⟨d, hd, rfl⟩
      simp only [Bool.and_eq_true, decide_eq_true_eq] at hrg
      refine ⟨rfl, k, hdl.symm.trans h1, ?_, h2⟩
      unfold Covers
      omega
    · rintro ⟨rfl, k, rfl, hc, hd⟩
      obtain ⟨d, h1, h2⟩ := (redundant_iff mp r.listing k).2 ⟨k, rfl, hd⟩
      refine ⟨d, ⟨h1, ?_⟩, rfl, h2⟩
      simp only [Bool.and_eq_true, decide_eq_true_eq]
      unfold Covers at hc
      omega
  · intro u' n hm
    simp only [List.map_append, List.map_map, Function.comp_def, List.mem_append, List.mem_map, List.mem_filter, reduceCtorEq, and_false, exists_false, or_false, false_or,
      Command.labelCreate.injEq] at hm
    obtain ⟨t, ⟨ht, ho⟩, rfl, rfl⟩ := hm
    obtain ⟨h1, h2⟩ := (C21_missing_refs _ src r' hr' t).1 ht
    obtain ⟨o1, o2, o3, o4⟩ := overlaps_iff.1 (show Overlaps rg.range ⟨t.l, t.b, t.l, t.e⟩ = true from ho)
    refine ⟨rfl, h2, t, (mem_refs hr' t).1 h1, rfl, ?_⟩
    unfold Meets Pos.Le
    dsimp only
    omega
  · intro u' v hm
    simp only [List.map_append, List.map_map, Function.comp_def, List.mem_append, List.mem_map, List.mem_filter, reduceCtorEq, and_false, exists_false, or_false, false_or,
      Command.versionUpdate.injEq] at hm
    obtain ⟨q, ⟨hq, ho⟩, rfl, rfl⟩ := hm
    obtain ⟨k, w, w', h1, h2, h3, h4, h5⟩ := versions_mem hr' hq
    obtain ⟨o1, o2, o3, o4⟩ := overlaps_iff.1 (show Overlaps rg.range ⟨q.l, q.b, q.l, q.e⟩ = true from ho)
    refine ⟨rfl, k, w, h1, ⟨w, w', h1, h2, ?_, ?_⟩, ?_⟩
    · unfold Pos.Le
      dsimp only
      omega
    · unfold Pos.Le
      dsimp only
      omega
    · intro hargs
      have hk : k < lineCount (tokens src) := words_lt (fun h => by rw [h] at h1; cases h1)
      obtain ⟨V, hV⟩ := version_exists hr' (Nat.le_of_lt hk)
      obtain ⟨sig, hsig⟩ := sig_exists (tokens src) k
      obtain ⟨e, he⟩ := head_op hr' hq (by rw [h3]; exact h1)
      obtain ⟨d, hd, hdn⟩ := docOps_names e (opsGet_mem he).1
      have hdn' : d.name = w.v := hdn.trans (opsGet_mem he).2
      obtain ⟨g1, g2⟩ := (C22_suggestion_partial _ src r' hr' k V hV sig hsig w h1 d hd hdn' (by rw [hdn']; exact hargs) q.version).1 ⟨q, hq, h3, rfl⟩
      exact ⟨V, sig, w, d, hV, hsig, h1, hd, hdn', g1, g2⟩
  · intro u' n hm
    simp only [List.map_append, List.map_map, Function.comp_def, List.mem_append, List.mem_map, reduceCtorEq, and_false, exists_false, or_false] at hm
  · intro hl
    constructor
    · intro t ht hm hnd
      simp only [List.map_append, List.map_map, Function.comp_def, List.mem_append, List.mem_map, List.mem_filter, reduceCtorEq, and_false, exists_false, or_false, false_or,
        Command.labelCreate.injEq]
      refine ⟨t, ⟨(C21_missing_refs _ src r' hr' t).2 ⟨(mem_refs hr' t).2 ht, hnd⟩, ?_⟩, trivial, rfl⟩
      refine overlaps_iff.2 ?_
      unfold Meets Pos.Le at hm
      dsimp only at hm
      omega
    · rintro k v w hw hargs ⟨w1, w2, g1, g2, g3, g4⟩ ⟨V, sig, w3, d, n1, n2, n3, n4, n5, n6, n7⟩
      rw [hw] at g1 n3
      cases g1; cases n3
      simp only [List.map_append, List.map_map, Function.comp_def, List.mem_append, List.mem_map, List.mem_filter, reduceCtorEq, and_false, exists_false, or_false, false_or,
        Command.versionUpdate.injEq]
      obtain ⟨q, hq, q1, q2⟩ := (C22_suggestion_partial _ src r' hr' k V n1 sig n2 w hw d n4 n5 (by rw [n5]; exact hargs) v).2 ⟨n6, n7⟩
      refine ⟨q, ⟨hq, ?_⟩, trivial, q2⟩
      obtain ⟨k', x, x', h1, h2, h3, h4, h5⟩ := versions_mem hr' hq
      rw [q1] at h3
      subst h3
      rw [hw] at h1
      rw [g2] at h2
      cases h1; cases h2
      refine overlaps_iff.2 ?_
      unfold Pos.Le at g3 g4
      dsimp only at g3 g4
      omega

/-- **C79** (partial: exactly which fixes for labels and versions are offered for any range, also over
several lines: those whose columns cross the columns of the ends of the range.) -/
theorem C79_columns_partial (h : Host) (ms : List (Choice × Msg)) (u src : Bytes) (rg : Rg) (a : Result)
    (ha : Answered h ms u src (.codeAction rg) a) : ∃ cs, a = .codeActions cs ∧
    (∀ u' n, .labelCreate u' n ∈ cs.map (·.command) ↔ u' = u ∧ ¬ DefinesLabel src n ∧
      ∃ t, t ∈ labelOperands (words (tokens src) t.l) ∧ t.v = n ∧ Meets rg t ∧ Level rg t.b t.e) ∧
    ((∀ t ∈ tokens src, t.v ≠ b!"args") → ∀ u' v, .versionUpdate u' v ∈ cs.map (·.command) ↔ u' = u ∧
      ∃ k, MeetsLine rg (tokens src) k ∧ LevelLine rg (tokens src) k ∧ Needs (tokens src) k v) := by
  obtain ⟨ch, mp, r', hr', hans⟩ := answered ha
  simp only [answer] at hans
  obtain ⟨cs, hcs, rfl⟩ := Option.map_eq_some_iff.1 hans
  unfold codeActions at hcs
  obtain ⟨ps, hps, rfl⟩ := Option.map_eq_some_iff.1 hcs
  refine ⟨_, rfl, fun u' n => ⟨?_, ?_⟩, fun hargs u' v => ⟨?_, ?_⟩⟩
  · intro hm
    simp only [List.map_append, List.map_map, Function.comp_def, List.mem_append, List.mem_map, List.mem_filter, reduceCtorEq, and_false, exists_false, or_false, false_or,
      Command.labelCreate.injEq] at hm
    obtain ⟨t, ⟨ht, ho⟩, rfl, rfl⟩ := hm
    obtain ⟨h1, h2⟩ := (C21_missing_refs _ src r' hr' t).1 ht
    obtain ⟨o1, o2, o3, o4⟩ := overlaps_iff.1 (show Overlaps rg.range ⟨t.l, t.b, t.l, t.e⟩ = true from ho)
    refine ⟨rfl, h2, t, (mem_refs hr' t).1 h1, rfl, ?_, ?_⟩
    · unfold Meets Pos.Le
      dsimp only
      omega
    · unfold Level
      omega
  · rintro ⟨rfl, hnd, t, ht, rfl, hm, hl⟩
    simp only [List.map_append, List.map_map, Function.comp_def, List.mem_append, List.mem_map, List.mem_filter, reduceCtorEq, and_false, exists_false, or_false, false_or,
      Command.labelCreate.injEq]
    refine ⟨t, ⟨(C21_missing_refs _ src r' hr' t).2 ⟨(mem_refs hr' t).2 ht, hnd⟩, ?_⟩, trivial, rfl⟩
    refine overlaps_iff.2 ?_
    unfold Meets Pos.Le at hm
    unfold Level at hl
    dsimp only at hm
    omega
  · intro hm
    simp only [List.map_append, List.map_map, Function.comp_def, List.mem_append, List.mem_map, List.mem_filter, reduceCtorEq, and_false, exists_false, or_false, false_or,
      Command.versionUpdate.injEq] at hm
    obtain ⟨q, ⟨hq, ho⟩, rfl, rfl⟩ := hm
    obtain ⟨k, w, w', h1, h2, h3, h4, h5⟩ := versions_mem hr' hq
    obtain ⟨o1, o2, o3, o4⟩ := overlaps_iff.1 (show Overlaps rg.range ⟨q.l, q.b, q.l, q.e⟩ = true from ho)
    refine ⟨rfl, k, ⟨w, w', h1, h2, ?_, ?_⟩, ⟨w, w', h1, h2, ?_⟩, ?_⟩
    · unfold Pos.Le
      dsimp only
      omega
    · unfold Pos.Le
      dsimp only
      omega
    · unfold Level
      omega
    · have hk : k < lineCount (tokens src) := words_lt (fun h => by rw [h] at h1; cases h1)
      obtain ⟨V, hV⟩ := version_exists hr' (Nat.le_of_lt hk)
      obtain ⟨sig, hsig⟩ := sig_exists (tokens src) k
      obtain ⟨e, he⟩ := head_op hr' hq (by rw [h3]; exact h1)
      obtain ⟨d, hd, hdn⟩ := docOps_names e (opsGet_mem he).1
      have hdn' : d.name = w.v := hdn.trans (opsGet_mem he).2
      have hna : w.v ≠ b!"args" := hargs w (mem_words.1 (List.mem_of_mem_head? h1)).1
      obtain ⟨g1, g2⟩ := (C22_suggestion_partial _ src r' hr' k V hV sig hsig w h1 d hd hdn' (by rw [hdn']; exact hna) q.version).1 ⟨q, hq, h3, rfl⟩
      exact ⟨V, sig, w, d, hV, hsig, h1, hd, hdn', g1, g2⟩
  · rintro ⟨rfl, k, ⟨w1, w2, g1, g2, g3, g4⟩, ⟨w4, w5, g5, g6, g7⟩, ⟨V, sig, w, d, n1, n2, n3, n4, n5, n6, n7⟩⟩
    obtain rfl : w1 = w := Option.some.inj (g1.symm.trans n3)
    obtain rfl : w4 = w1 := Option.some.inj (g5.symm.trans n3)
    obtain rfl : w5 = w2 := Option.some.inj (g6.symm.trans g2)
    have hna : w4.v ≠ b!"args" := hargs w4 (mem_words.1 (List.mem_of_mem_head? n3)).1
    simp only [List.map_append, List.map_map, Function.comp_def, List.mem_append, List.mem_map, List.mem_filter, reduceCtorEq, and_false, exists_false, or_false, false_or,
      Command.versionUpdate.injEq]
    obtain ⟨q, hq, q1, q2⟩ := (C22_suggestion_partial _ src r' hr' k V n1 sig n2 w4 n3 d n4 n5 (by rw [n5]; exact hna) v).2 ⟨n6, n7⟩
    refine ⟨q, ⟨hq, ?_⟩, trivial, q2⟩
    obtain ⟨k', x, x', h1, h2, h3, h4, h5⟩ := versions_mem hr' hq
    rw [q1] at h3
    subst h3
    rw [n3] at h1
    rw [g2] at h2
    cases h1; cases h2
    refine overlaps_iff.2 ?_
    unfold Pos.Le at g3 g4
    unfold Level at g7
    dsimp only at g3 g4
    omega

/-- A label that nothing refers to, a reference to a label that is not there, and an instruction of a
later version. -/
example : Answered sampleHost (openSession b!"l:\nb y\nsha3_256") b!"u" b!"l:\nb y\nsha3_256" (.codeAction ⟨⟨0, 0⟩, ⟨2, 8⟩⟩)
      (.codeActions [⟨b!"Remove label 'l'", b!"Remove label 'l'", .lineRemove b!"u" 0⟩, ⟨b!"Create label 'y'", b!"Create label", .labelCreate b!"u" b!"y"⟩,
        ⟨b!"Update version to 2", b!"Update version", .versionUpdate b!"u" 2⟩, ⟨b!"Update version to 7", b!"Update version", .versionUpdate b!"u" 7⟩]) ∧
    Covers ⟨⟨0, 0⟩, ⟨2, 8⟩⟩ 0 ∧ (process sampleEnv b!"l:\nb y\nsha3_256").map (·.listing) = some [.label b!"l", .branch .b b!"y", .plain .sha3_256] ∧
    Dispensable [.label b!"l", .branch .b b!"y", .plain .sha3_256] 0 := by
  refine ⟨open_answered _ _ _ (by decide +kernel), by simp [Covers], by decide +kernel, .label b!"l" rfl ?_⟩
  rintro ⟨i, o, h1, h2⟩
  match i, h1 with
  | 0, h1 => cases h1; cases h2
  | 1, h1 => cases h1; cases h2
  | 2, h1 => cases h1; cases h2

/-- **C79** fails for ranges over more than one line: a fix for a label is offered only when the columns
of the word meet those of the range's ends. -/
theorem C79_false : ∃ cs, Answered sampleHost (openSession b!"b    x\nerr") b!"u" b!"b    x\nerr" (.codeAction ⟨⟨0, 0⟩, ⟨1, 3⟩⟩)
      (.codeActions cs) ∧ .labelCreate b!"u" b!"x" ∉ cs.map (·.command) ∧ ¬ DefinesLabel b!"b    x\nerr" b!"x" ∧
    ∃ t, t ∈ labelOperands (words (tokens b!"b    x\nerr") t.l) ∧ t.v = b!"x" ∧ Meets ⟨⟨0, 0⟩, ⟨1, 3⟩⟩ t := by
  refine ⟨[⟨b!"Update version to 2", b!"Update version", .versionUpdate b!"u" 2⟩], open_answered _ _ _ (by decide +kernel), by decide, ?_, ⟨b!"x", 0, 5, 6, .value⟩, by decide +kernel, rfl, ?_⟩
  · rintro ⟨-, k, t, h1, h2⟩
    have hm := (mem_words.1 (List.mem_of_mem_head? h1)).1
    have : ∀ t ∈ tokens b!"b    x\nerr", t.v ≠ b!"x" ++ [chColon] := by decide +kernel
    exact this t hm h2
  · simp [Meets, Pos.Le]

end Teal.Props
