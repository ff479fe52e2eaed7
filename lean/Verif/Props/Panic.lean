import Verif.Spec.Padded
import Verif.Lemmas.LineEdit
import Verif.Props.Process

/-!
# When processing a text panics
-/

namespace Teal
open Spec

/-! ## Empty entries at the end of the listing -/

theorem labelDefs_empty (n : Bytes) (l : List Op) : ∀ s, labelDefs n s (l ++ [.empty]) = labelDefs n s l := by
  induction l with
  | nil => intro s; rfl
  | cons o l ih =>
    intro s
    cases o <;> simp only [List.cons_append, labelDefs, ih]

theorem labelUsers_empty (n : Bytes) (l : List Op) : ∀ s, labelUsers n s (l ++ [.empty]) = labelUsers n s l := by
  induction l with
  | nil => intro s; rfl
  | cons o l ih =>
    intro s
    simp only [List.cons_append, labelUsers, ih]

theorem labelNames_empty (l : List Op) : labelNames (l ++ [.empty]) = labelNames l := by
  have h : (l ++ [Op.empty]).filterMap Op.labelName? = l.filterMap Op.labelName? := by
    rw [List.filterMap_append, show [Op.empty].filterMap Op.labelName? = [] from rfl, List.append_nil]
  unfold labelNames
  rw [h]

theorem usedNames_empty (l : List Op) : usedNames (l ++ [.empty]) = usedNames l := by
  have h : (l ++ [Op.empty]).flatMap Op.labels = l.flatMap Op.labels := by
    rw [List.flatMap_append, show [Op.empty].flatMap Op.labels = [] from rfl, List.append_nil]
  unfold usedNames
  rw [h]

theorem unreachableFrom_empty (used : Bytes → List Nat) (l : List Op) : ∀ d s,
    unreachableFrom used d s (l ++ [.empty]) = unreachableFrom used d s l := by
  induction l with
  | nil =>
    intro d s
    cases d
    · rfl
    · simp [unreachableFrom, Op.isNop]
  | cons o l ih =>
    intro d s
    rw [List.cons_append, unreachableFrom_cons, unreachableFrom_cons, ih]

theorem nextLabelIs_empty (n : Bytes) (l : List Op) : nextLabelIs n (l ++ [.empty]) = nextLabelIs n l := by
  induction l with
  | nil => simp [nextLabelIs, Op.isNop]
  | cons o l ih => cases o <;> simp only [List.cons_append, nextLabelIs, ih]

theorem bJustBeforeFrom_empty (l : List Op) : ∀ s, bJustBeforeFrom s (l ++ [.empty]) = bJustBeforeFrom s l := by
  induction l with
  | nil => intro s; rfl
  | cons o l ih =>
    intro s
    rw [List.cons_append]
    by_cases hb : ∃ n, o = .branch .b n
    · obtain ⟨n, rfl⟩ := hb
      simp only [bJustBeforeFrom, nextLabelIs_empty, ih]
      cases l with
      | nil => simp [nextLabelIs]
      | cons a l => simp
    · have h1 : ∀ os, bJustBeforeFrom s (o :: os) = bJustBeforeFrom (s + 1) os := by
        intro os
        rw [bJustBeforeFrom]
        exact fun n h => hb ⟨n, h⟩
      rw [h1, h1, ih]

theorem findBack_empty (l : List Op) (n : Bytes) : ∀ i, i ≤ l.length → findBack (l ++ [.empty]) n i = findBack l n i := by
  intro i
  induction i with
  | zero => intro _; rfl
  | succ i ih =>
    intro h
    rw [findBack, findBack, ih (by omega), List.getElem?_append_left (by omega)]

theorem canEscape_empty (l : List Op) (j i : Nat) (h : i < l.length) :
    canEscape (l ++ [.empty]) j i = canEscape l j i := by
  unfold canEscape
  rw [Bool.eq_iff_iff, List.any_eq_true, List.any_eq_true]
  constructor
  all_goals
    rintro ⟨k, hk, hx⟩
    refine ⟨k, hk, ?_⟩
    have hkl : k < l.length := by
      have := List.mem_range'_1.1 hk
      omega
    rw [List.getElem?_append_left hkl] at *
    simp only [labelDefs_empty] at *
    exact hx

theorem loopsAt_empty (l : List Op) (i : Nat) (h : i < l.length) : loopsAt (l ++ [.empty]) i = loopsAt l i := by
  unfold loopsAt
  rw [List.getElem?_append_left h]
  split
  · rw [findBack_empty _ _ _ (by omega)]
    split
    · rw [canEscape_empty _ _ _ h]
    · rfl
  · rfl

theorem lintLoops_empty (l : List Op) : lintLoops (l ++ [.empty]) = lintLoops l := by
  unfold lintLoops
  have h1 : (l ++ [Op.empty]).length = l.length + 1 := by simp
  rw [h1, List.range_succ, List.filter_append]
  have h2 : (List.filter (fun i => decide (i ≠ 0) && loopsAt (l ++ [.empty]) i) [l.length]) = [] := by
    have : loopsAt (l ++ [.empty]) l.length = false := by simp [loopsAt]
    simp [this]
  rw [h2, List.append_nil]
  congr 1
  apply List.filter_congr
  intro i hi
  rw [loopsAt_empty _ _ (List.mem_range.1 hi)]

theorem pragmaFrom_empty (l : List Op) : ∀ p s, pragmaFrom p s (l ++ [.empty]) = pragmaFrom p s l := by
  induction l with
  | nil => intro p s; simp [pragmaFrom, Op.isNop]
  | cons o l ih =>
    intro p s
    rw [List.cons_append, pragmaFrom_cons, pragmaFrom_cons, ih]

theorem lintErrs_empty (o : MapOrder) (l : List Op) : lintErrs o (l ++ [.empty]) = lintErrs o l := by
  simp only [lintErrs, lintDuplicate, lintUnused, unusedLabels, lintUnreachable, lintBJustBefore, lintMissing,
    lintPragma, labelNames_empty, usedNames_empty, labelDefs_empty, labelUsers_empty, unreachableFrom_empty,
    bJustBeforeFrom_empty, lintLoops_empty, pragmaFrom_empty]

/-- The linter has nothing to say about empty entries at the end. -/
theorem lintErrs_empties (o : MapOrder) (l : List Op) (m : Nat) :
    lintErrs o (l ++ List.replicate m .empty) = lintErrs o l := by
  induction m with
  | zero => simp
  | succ m ih => rw [List.replicate_succ', ← List.append_assoc, lintErrs_empty, ih]

/-! ## Blank lines at the end of the text -/

theorem run_empties {addrOk : Bytes → Bool} {ls : List (List Token)} {s : Carry} {os : List LineOut} (m : Nat)
    (h : Run addrOk s (ls ++ List.replicate m []) os) :
    ∃ os', Run addrOk s ls os' ∧
      os.flatMap (·.ctx.ops) = os'.flatMap (·.ctx.ops) ++ List.replicate m .empty := by
  induction ls generalizing s os with
  | nil =>
    refine ⟨[], .nil s, ?_⟩
    rw [List.nil_append] at h
    induction m generalizing s os with
    | zero =>
      cases h
      rfl
    | succ m ih =>
      rw [List.replicate_succ] at h
      cases h with
      | cons _ _ o _ os hl hf hr =>
        have h1 := ih hr
        have h2 : o.ctx.ops = [.empty] := by
          rw [processLine] at hl
          cases hl
          rfl
        rw [List.flatMap_cons, h2, h1, List.replicate_succ]
        rfl
  | cons l ls ih =>
    rw [List.cons_append] at h
    cases h with
    | cons _ _ o _ os hl hf hr =>
      obtain ⟨os', h1, h2⟩ := ih hr
      exact ⟨o :: os', .cons _ _ _ _ _ hl hf h1, by rw [List.flatMap_cons, List.flatMap_cons, h2, List.append_assoc]⟩

theorem run_det {addrOk : Bytes → Bool} {ls : List (List Token)} {s : Carry} {os os' : List LineOut}
    (h : Run addrOk s ls os) (h' : Run addrOk s ls os') : os = os' := by
  induction h generalizing os' with
  | nil => cases h'; rfl
  | cons s line o ls os h hf hr ih =>
    cases h' with
    | cons _ _ o' _ os' h2 hf2 hr2 =>
      rw [h] at h2
      cases h2
      rw [ih hr2]

theorem run_ops_le {addrOk : Bytes → Bool} {ls : List (List Token)} {s : Carry} {os : List LineOut}
    (h : Run addrOk s ls os) : (os.flatMap (·.ctx.ops)).length ≤ 2 * ls.length := by
  induction h with
  | nil => simp
  | cons s line o ls os h hf hr ih =>
    rw [List.flatMap_cons, List.length_append, List.length_cons]
    rcases hf.ops with ⟨op, h1, -⟩ | ⟨op, t, h1, -, -⟩
    · rw [h1, List.length_singleton]; omega
    · rw [h1, show [op, Op.empty].length = 2 from rfl]; omega

theorem padded_lines {src src' : Bytes} (h : Padded src src') :
    ∃ m, linesOf src' = linesOf src ++ List.replicate m [] := by
  have hle : lineCount (readTokens src).1 ≤ lineCount (readTokens src').1 := by have := h.more; omega
  refine ⟨lineCount (readTokens src').1 - lineCount (readTokens src).1, ?_⟩
  have hl : ∀ k, lineTokens (readTokens src').1 k = lineTokens (readTokens src).1 k := by
    intro k
    simp only [lineTokens, h.words, h.comments]
  apply List.ext_getElem?
  intro k
  by_cases h1 : k < lineCount (readTokens src).1
  · rw [List.getElem?_append_left (by rw [linesOf_length]; exact h1), (linesOf_get src k _).2 ⟨h1, rfl⟩,
      (linesOf_get src' k _).2 ⟨by omega, rfl⟩, hl]
  · rw [List.getElem?_append_right (by rw [linesOf_length]; omega), linesOf_length]
    by_cases h2 : k < lineCount (readTokens src').1
    · rw [(linesOf_get src' k _).2 ⟨h2, rfl⟩, hl, List.getElem?_replicate, if_pos (by omega)]
      have hn : ∀ t ∈ (readTokens src).1, t.l ≠ k := by
        intro t ht
        have := Lsp.line_lt_count src t ht
        show t.l ≠ k
        have h3 : lineCount (Props.tokens src) = lineCount (readTokens src).1 := rfl
        omega
      have hw := Lsp.words_nil hn
      have hc : comments (readTokens src).1 k = [] := by
        rw [comments, List.filter_eq_nil_iff]
        intro t ht
        simp [hn t ht]
      rw [lineTokens, if_pos hw, hc]
    · rw [List.getElem?_eq_none (by rw [linesOf_length]; omega), List.getElem?_eq_none (by simp; omega)]

end Teal

namespace Teal.Props
open Teal Spec

/-! ## C17 -/

theorem lexes_breaks (n : Nat) : ∀ l, ∃ ts, Lexes l 0 (lineBreaks n) ts none ∧ (∀ t ∈ ts, t.t = .eol) ∧
    (n = 0 → ts = []) ∧ (n ≠ 0 → lineCount ts = l + n ∧ ts ≠ []) := by
  induction n with
  | zero => exact fun l => ⟨[], .done l 0, by simp, fun _ => rfl, fun h => absurd rfl h⟩
  | succ n ih =>
    intro l
    obtain ⟨ts, h1, h2, h0, h3⟩ := ih (l + 1)
    refine ⟨_, .eol l 0 [chCR, chLF] _ ts none (Or.inr (Or.inl rfl)) h1, ?_, by simp, fun _ => ⟨?_, by simp⟩⟩
    · intro t ht
      rcases List.mem_cons.1 ht with rfl | ht
      · rfl
      · exact h2 t ht
    · cases n with
      | zero =>
        rw [h0 rfl]
        rfl
      | succ n =>
        obtain ⟨h4, h5⟩ := h3 (by simp)
        rw [show ∀ t : Token, t :: ts = [t] ++ ts from fun _ => rfl, Lsp.lineCount_append h5, h4]
        omega

/-- Line breaks behind a text without an unterminated string are blank lines behind it. -/
theorem padded (src : Bytes) (he : (readTokens src).2 = []) (n : Nat)
    (hn : 2 * lineCount (tokens src) ≤ n) : Padded src (src ++ lineBreaks n) := by
  obtain ⟨err, h1, h2⟩ := readTokens_lexes src
  have herr : err = none := by
    cases err with
    | none => rfl
    | some p => rw [he] at h2; simp [errDiag] at h2
  subst herr
  have hn' : 2 * lineCount (readTokens src).1 ≤ n := hn
  cases n with
  | zero =>
    have h3 : src ++ lineBreaks 0 = src := List.append_nil _
    rw [h3]
    exact ⟨by omega, fun _ => rfl, fun _ => rfl⟩
  | succ n =>
    obtain ⟨ts, h3, h4, h5, h6⟩ := lexes_breaks n (0 + eolCount (readTokens src).1 + 1)
    obtain ⟨col, h7⟩ := lexes_append_break h1 [chCR, chLF] (lineBreaks n) ts none (Or.inr (Or.inl rfl)) h3 rfl
    have h8 : [chCR, chLF] ++ lineBreaks n = lineBreaks (n + 1) := rfl
    rw [h8] at h7
    have h9 := congrArg Prod.fst (readTokens_of_lexes h7)
    dsimp only at h9
    have hskip : ∀ t ∈ (⟨[chCR, chLF], 0 + eolCount (readTokens src).1, col, col + [chCR, chLF].length, .eol⟩ : Token) :: ts,
        t.t = .eol := by
      intro t ht
      rcases List.mem_cons.1 ht with rfl | ht
      · rfl
      · exact h4 t ht
    refine ⟨?_, fun k => ?_, fun k => ?_⟩
    · rw [h9, Lsp.lineCount_append (by simp)]
      cases n with
      | zero =>
        have : lineCount (readTokens src).1 = 0 := by omega
        omega
      | succ n =>
        obtain ⟨h10, h11⟩ := h6 (by simp)
        rw [show ∀ t : Token, t :: ts = [t] ++ ts from fun _ => rfl, Lsp.lineCount_append h11, h10]
        omega
    · rw [h9, words, List.filter_append, (List.filter_eq_nil_iff (l := _ :: ts)).2, List.append_nil, words]
      intro t ht
      simp [hskip t ht]
    · rw [h9, comments, List.filter_append, (List.filter_eq_nil_iff (l := _ :: ts)).2, List.append_nil, comments]
      intro t ht
      simp [hskip t ht]

/-- **C17** (exactly).  Processing a text panics if and only if processing the text with as many blank lines
behind it, which does not panic, reports a rule of the linter broken on one of these blank lines. -/
theorem C17_exact (env : Env) (src src' : Bytes) (h : Padded src src') : ∃ r, process env src' = some r ∧
    (process env src = none ↔ ∃ d ∈ r.diagnostics, (∃ rule, d.kind = .lint rule) ∧ lineCount (tokens src) ≤ d.l) := by
  obtain ⟨m, hm⟩ := padded_lines h
  obtain ⟨os, hr, he⟩ := process_eq env src
  obtain ⟨os', hr', he'⟩ := process_eq env src'
  rw [hm] at hr'
  obtain ⟨os2, h2, hops⟩ := run_empties m hr'
  have := run_det hr h2
  subst this
  have hlint : lintErrs env.maps (os'.flatMap (·.ctx.ops)) = lintErrs env.maps (os.flatMap (·.ctx.ops)) := by
    rw [hops, lintErrs_empties]
  have hc : lineCount (tokens src) = (linesOf src).length := (linesOf_length src).symm
  have hlt : ∀ e ∈ lintErrs env.maps (os'.flatMap (·.ctx.ops)), e.l < (linesOf src').length := by
    intro e hin
    rw [hlint] at hin
    have h3 := lintErrs_lt _ _ _ hin
    have h4 := run_ops_le hr
    have h5 := h.more
    rw [← linesOf_length, ← linesOf_length] at h5
    omega
  obtain ⟨ds, hds⟩ := (lintDiags_some _ _).2 hlt
  have hsome : ∃ r, process env src' = some r := by
    rw [he']
    unfold assemble
    simp only [hds]
    exact ⟨_, rfl⟩
  obtain ⟨r, hr1⟩ := hsome
  refine ⟨r, hr1, ?_⟩
  have hnone : process env src = none ↔ ∃ e ∈ lintErrs env.maps (os.flatMap (·.ctx.ops)), (linesOf src).length ≤ e.l := by
    rw [he]
    unfold assemble
    simp only [Option.map_eq_none_iff]
    have h1 := lintDiags_some (linesOf src) (lintErrs env.maps (os.flatMap (·.ctx.ops)))
    constructor
    · intro hn
      rw [hn] at h1
      false_or_by_contra
      rename_i hno
      have := h1.2 (fun e hin => by
        false_or_by_contra
        exact hno ⟨e, hin, by omega⟩)
      obtain ⟨_, hx⟩ := this
      cases hx
    · rintro ⟨e, hin, hge⟩
      cases hx : lintDiags (linesOf src) (lintErrs env.maps (os.flatMap (·.ctx.ops))) with
      | none => rfl
      | some x =>
        have := h1.1 ⟨x, hx⟩ e hin
        omega
  rw [hnone, hc, ← hlint]
  rw [he'] at hr1
  obtain ⟨lds, h3, h4, h5, -⟩ := assemble_eq hr1
  rw [h4, hds] at h3
  cases h3
  have hd := lintDiags_eq _ _ _ hds
  rw [h5]
  constructor
  · rintro ⟨e, hin, hge⟩
    refine ⟨_, List.mem_append_right _ (hd ▸ List.mem_map_of_mem hin), ⟨e.rule, rfl⟩, hge⟩
  · rintro ⟨d, hin, ⟨rule, hk⟩, hge⟩
    rcases List.mem_append.1 hin with hin | hin
    · rcases List.mem_append.1 hin with hin | hin
      · obtain ⟨e, -, rfl⟩ := List.mem_map.1 hin
        simp [lexDiag] at hk
      · obtain ⟨o, ho, hdo⟩ := List.mem_flatMap.1 hin
        obtain ⟨s, line, -, hf⟩ := hr'.mem o ho
        rcases hf.diagKind d hdo with h6 | ⟨w, h6⟩
        · rw [hk] at h6; simp [DiagKind.isAvail] at h6
        · rw [hk] at h6; cases h6
    · rw [hd] at hin
      obtain ⟨e, he, rfl⟩ := List.mem_map.1 hin
      exact ⟨e, he, hge⟩

/-- The text of `C17_false`, with blank lines behind it: the linter says that line 2 is an unused label. -/
example : (process sampleEnv b!"pop 1\na:" = none ∧ Padded b!"pop 1\na:" (b!"pop 1\na:" ++ lineBreaks 4)) ∧
    (process sampleEnv (b!"pop 1\na:" ++ lineBreaks 4)).map (fun r => r.diagnostics.map (fun d => (d.kind, d.l))) =
      some [(.parse .tooManyValues, 0), (.lint (.unusedLabel b!"a"), 2)] :=
  ⟨⟨by decide +kernel, padded _ (by decide +kernel) 4 (by decide +kernel)⟩, by decide +kernel⟩

end Teal.Props
