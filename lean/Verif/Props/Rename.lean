import Verif.Lemmas.Rename
import Verif.Props.Lexer
import Verif.Props.Lsp

/-!
# Properties of the language server: labels
-/

namespace Teal.Lsp

open Teal Teal.Spec Teal.Lsp.Spec Teal.Props

/-- A word takes up space. -/
theorem value_width {src : Bytes} {t : Token} (h : t ∈ tokens src) (hv : t.t = .value) : t.b < t.e := by
  obtain ⟨ps, tail, hd, hp⟩ := C02_positions_partial src
  unfold tokens at h
  rw [hd.toks_eq] at h
  obtain ⟨p, hm, rfl⟩ := List.mem_map.1 h
  obtain ⟨ps1, ps2, rfl⟩ := List.append_of_mem hm
  have h1 := (hp ps1 p ps2 rfl).1
  rcases (hd.pieces p hm).2 with ⟨ht, _⟩ | ⟨ht, _⟩ | ⟨_, h2, h3, _⟩ | ⟨_, body, u, h2, _⟩
  · rw [hv] at ht; cases ht
  · rw [hv] at ht; cases ht
  · have := List.length_pos_iff.2 h3
    simp_all
  · rw [h1, h2]; simp

theorem filter_eq_singleton {α : Type} {l : List α} {a : α} {f : α → Bool} (hn : l.Pairwise fun x y => x ≠ y) (ha : a ∈ l)
    (h : ∀ x ∈ l, f x = true ↔ x = a) : l.filter f = [a] := by
  induction l with
  | nil => cases ha
  | cons x xs ih =>
    rw [List.pairwise_cons] at hn
    rcases List.mem_cons.1 ha with rfl | ha
    · rw [List.filter_cons_of_pos ((h a (by simp)).2 rfl)]
      congr 1
      rw [List.filter_eq_nil_iff]
      intro y hy hf
      exact hn.1 y hy ((h y (by simp [hy])).1 hf).symm
    · rw [List.filter_cons_of_neg]
      · exact ih hn.2 ha fun y hy => h y (by simp [hy])
      · intro hf
        exact hn.1 a (by assumption) ((h x (by simp)).1 hf)

theorem refs_nodup {env : Env} {src : Bytes} {r : ProcessResult} (h : process env src = some r) :
    r.symbolRefs.Pairwise fun a b => a ≠ b := by
  refine (refs_pairwise h).imp_of_mem ?_
  rintro a b ha hb hab rfl
  have hw := (labelOperands_sublist _).subset ((mem_refs h a).1 ha)
  have hm := mem_words.1 hw
  have := value_width hm.1 hm.2.2
  have := hab rfl
  omega

/-- What is under the cursor, as the analysis reports it. -/
theorem under_cases {env : Env} {src : Bytes} {r : ProcessResult} (h : process env src = some r) {p : Pos} {t : Token} {n : Bytes}
    (ht : Under (tokens src) p t n) (hu : ∀ t' n', Under (tokens src) p t' n' → t' = t) :
    (∃ s ∈ r.symbols, s.name = n ∧ s.l = t.l ∧ s.b = t.b ∧ s.e = t.e ∧ r.symbolsWithin p.range = [s] ∧ r.symbolRefsWithin p.range = []) ∨
    (n = t.v ∧ t ∈ r.symbolRefs ∧ r.symbolsWithin p.range = [] ∧ r.symbolRefsWithin p.range = [t]) := by
  have hline : ∀ s ∈ r.symbolsWithin p.range, (s.l : Int) = p.line := by
    intro s hs
    have := (List.mem_filter.1 hs).2
    rw [LabelSym.range, overlaps_pos] at this
    exact this.1.symm
  have hline2 : ∀ s ∈ r.symbolRefsWithin p.range, (s.l : Int) = p.line := by
    intro s hs
    have := (List.mem_filter.1 hs).2
    rw [Token.range, overlaps_pos] at this
    exact this.1.symm
  have hp := symbols_pairwise h
  have hboth : ∀ s ∈ r.symbolsWithin p.range, ∀ t ∈ r.symbolRefsWithin p.range, False := by
    intro s hs t ht
    refine sym_ref_lines h (List.mem_filter.1 hs).1 (List.mem_filter.1 ht).1 ?_
    have := hline s hs
    have := hline2 t ht
    omega
  rcases (under_iff h p t n).1 ht with ⟨s, hs, _, h1, h2, h3, h4⟩ | ⟨ht', rfl⟩
  · left
    refine ⟨s, (List.mem_filter.1 hs).1, h1, h2, h3, h4, ?_, ?_⟩
    · refine filter_eq_singleton (hp.imp (fun hab he => hab (by rw [he]))) (List.mem_filter.1 hs).1 ?_
      intro x hx
      constructor
      · intro hf
        have h5 := hline x (List.mem_filter.2 ⟨hx, hf⟩)
        have h6 := hline s hs
        exact labelSym_ext_pos hp hx (List.mem_filter.1 hs).1 (by omega)
      · rintro rfl
        exact (List.mem_filter.1 hs).2
    · rw [List.eq_nil_iff_forall_not_mem]
      exact fun x hx => hboth s hs x hx
  · right
    refine ⟨rfl, (List.mem_filter.1 ht').1, ?_, ?_⟩
    · rw [List.eq_nil_iff_forall_not_mem]
      exact fun x hx => hboth x hx t ht'
    · refine filter_eq_singleton (refs_nodup h) (List.mem_filter.1 ht').1 ?_
      intro x hx
      constructor
      · intro hf
        exact hu x x.v ((under_iff h p x x.v).2 (.inr ⟨List.mem_filter.2 ⟨hx, hf⟩, rfl⟩))
      · rintro rfl
        exact (List.mem_filter.1 ht').2

theorem mem_renameEdits {env : Env} {src : Bytes} {r : ProcessResult} (h : process env src = some r) (new n : Bytes) (rg : Rg) :
    rg ∈ (renameEdits r new n).map (·.range) ↔ ∃ l b e : Nat, rg = Lsp.onLine l b e ∧ Occurs (tokens src) n l b e := by
  simp only [renameEdits, List.map_append, List.map_map, List.mem_append, List.mem_map, ProcessResult.symByName,
    ProcessResult.symRefByName, List.mem_filter, beq_iff_eq, Function.comp, symEdit, refEdit]
  constructor
  · rintro (⟨s, ⟨hs, rfl⟩, rfl⟩ | ⟨t, ⟨ht, rfl⟩, rfl⟩)
    · obtain ⟨w, hw, hn, hb, he⟩ := (mem_symbols h s.name s.l s.b s.e).1 ⟨s, hs, rfl, rfl, rfl, rfl⟩
      refine ⟨s.l, s.b, s.b + s.name.length, by simp, ?_⟩
      rw [← hb]
      exact .definition s.l w hw hn
    · exact ⟨t.l, t.b, t.e, rfl, .reference t.l t ((mem_refs h t).1 ht) rfl⟩
  · rintro ⟨l, b, e, rfl, ho⟩
    cases ho with
    | definition t ht hn =>
      obtain ⟨s, hs, h1, h2, h3, h4⟩ := (mem_symbols h n l t.b t.e).2 ⟨t, ht, hn, rfl, rfl⟩
      refine .inl ⟨s, ⟨hs, h1⟩, ?_⟩
      rw [h1, h2, h3]
      simp
    | reference t ht hn =>
      have hl := (mem_words.1 ((labelOperands_sublist _).subset ht)).2.1
      subst hl
      exact .inr ⟨t, ⟨(mem_refs h t).2 ht, hn⟩, rfl⟩

theorem renameEdits_apart {env : Env} {src : Bytes} {r : ProcessResult} (h : process env src = some r) (new n : Bytes) :
    (renameEdits r new n).Pairwise fun x y => Apart x.range y.range := by
  simp only [renameEdits, List.pairwise_append, List.pairwise_map]
  refine ⟨?_, ?_, ?_⟩
  · refine ((symbols_pairwise h).sublist List.filter_sublist).imp ?_
    intro a b hab
    left
    show ((a.l : Int)) ≠ b.l
    omega
  · refine ((refs_pairwise h).sublist List.filter_sublist).imp ?_
    intro a b hab
    simp only [Apart, refEdit, Lsp.onLine]
    by_cases hl : a.l = b.l
    · have := hab hl
      omega
    · omega
  · intro x hx y hy
    obtain ⟨s, hs, rfl⟩ := List.mem_map.1 hx
    obtain ⟨t, ht, rfl⟩ := List.mem_map.1 hy
    left
    have := sym_ref_lines h (List.mem_filter.1 hs).1 (List.mem_filter.1 ht).1
    show ((s.l : Int)) ≠ t.l
    omega

end Teal.Lsp

namespace Teal.Props

open Teal Teal.Spec Teal.Lsp Teal.Lsp.Spec

/-- What is asked of the edits for renaming label `n` of a text to `new`. -/
structure RenamesAll (src n new : Bytes) (es : List TextEdit) : Prop where
  text : ∀ e ∈ es, e.newText = new
  places : ∀ rg, rg ∈ es.map (·.range) ↔ ∃ l b e : Nat, rg = Lsp.onLine l b e ∧ Occurs (tokens src) n l b e
  apart : es.Pairwise fun x y => Apart x.range y.range

/-- C50 for a cursor on a single word: the edits replace every definition of the label, without
its colon, and every reference to it, and nothing else, and do not overlap.  Missing: words that
touch, with the cursor between them. -/
theorem C50_partial (h : Host) (ms : List (Choice × Msg)) (u src : Bytes) (p : Pos) (new : Bytes) (a : Result)
    (ha : Answered h ms u src (.rename p new) a) (t : Token) (n : Bytes) (ht : Under (tokens src) p t n)
    (hu : ∀ t' n', Under (tokens src) p t' n' → t' = t) :
    ∃ es, a = .workspaceEdit u es ∧ RenamesAll src n new es := by
  obtain ⟨ch, mp, r, hr, hans⟩ := answered ha
  simp only [answer, Option.some.injEq] at hans
  refine ⟨renameEdits r new n, ?_, ?_, mem_renameEdits hr new n, renameEdits_apart hr new n⟩
  · rw [← hans]
    rcases under_cases hr ht hu with ⟨s, hs, rfl, h2, h3, h4, h5, h6⟩ | ⟨rfl, h2, h3, h4⟩
    · rw [h5, h6]; simp
    · rw [h3, h4]; simp
  · intro e he
    rcases List.mem_append.1 he with he | he <;> obtain ⟨x, _, rfl⟩ := List.mem_map.1 he <;> rfl

/-- C50 for a cursor inside a word. -/
theorem C50_inside (h : Host) (ms : List (Choice × Msg)) (u src : Bytes) (p : Pos) (new : Bytes) (a : Result)
    (ha : Answered h ms u src (.rename p new) a) (t : Token) (n : Bytes) (ht : Under (tokens src) p t n)
    (hb : t.b < p.character) (he : p.character < t.e) :
    ∃ es, a = .workspaceEdit u es ∧ RenamesAll src n new es :=
  C50_partial h ms u src p new a ha t n ht fun _ _ ht' => under_inside ht ht' hb he

/-- C50: where there is no label, nothing is changed. -/
theorem C50_nothing (h : Host) (ms : List (Choice × Msg)) (u src : Bytes) (p : Pos) (new : Bytes) (a : Result)
    (ha : Answered h ms u src (.rename p new) a) (hn : ∀ t n, ¬ Under (tokens src) p t n) :
    a = .workspaceEdit u [] := by
  obtain ⟨ch, mp, r, hr, hans⟩ := answered ha
  simp only [answer, Option.some.injEq] at hans
  rw [← hans]
  have h1 : r.symbolsWithin p.range = [] := by
    rw [List.eq_nil_iff_forall_not_mem]
    intro s hs
    obtain ⟨t, ht, _⟩ := under_symbol hr hs
    exact hn _ _ ht
  have h2 : r.symbolRefsWithin p.range = [] := by
    rw [List.eq_nil_iff_forall_not_mem]
    exact fun t ht => hn _ _ ((under_iff hr p t t.v).2 (.inr ⟨ht, rfl⟩))
  rw [h1, h2]; rfl

/-- The reply to a question at the end of `sampleSession` about document `u`, which holds
`b x\nx:`. -/
theorem sample_answered (q : Query) (a : Result)
    (h : (run sampleHost (sampleSession ++ [(sampleChoice, ⟨false, b!"9", .query (.given (b!"u", q))⟩)])).sent =
      (run sampleHost sampleSession).sent ++ [.reply b!"9" a]) :
    Answered sampleHost sampleSession b!"u" b!"b x\nx:" q a := by
  refine ⟨⟨by decide +kernel, by decide +kernel⟩, sample_holds, ?_, sampleChoice, b!"9", h⟩
  rintro ⟨y, hy, h⟩
  revert h
  revert y
  decide +kernel

/-- The hypotheses of `C50_partial` are met, and of `C50_nothing`. -/
example :
    Answered sampleHost sampleSession b!"u" b!"b x\nx:" (.rename ⟨1, 0⟩ b!"yy")
      (.workspaceEdit b!"u" [⟨Lsp.onLine 1 0 1, b!"yy"⟩, ⟨Lsp.onLine 0 2 3, b!"yy"⟩]) ∧
    Under (tokens b!"b x\nx:") ⟨1, 0⟩ { v := b!"x:", l := 1, b := 0, e := 2, t := .value } b!"x" ∧
    Answered sampleHost sampleSession b!"u" b!"b x\nx:" (.rename ⟨0, 0⟩ b!"yy") (.workspaceEdit b!"u" []) := by
  refine ⟨sample_answered _ _ (by decide +kernel), .definition _ _ (by decide +kernel) (by decide +kernel) ?_,
    sample_answered _ _ (by decide +kernel)⟩
  simp [On]

/-- A session in which a document with the given text is opened. -/
def openSession (src : Bytes) : List (Choice × Msg) :=
  [(sampleChoice, ⟨false, b!"null", .didOpen (.given (b!"u", src))⟩)]

theorem open_answered (src : Bytes) (q : Query) (a : Result)
    (h : (run sampleHost (openSession src ++ [(sampleChoice, ⟨false, b!"9", .query (.given (b!"u", q))⟩)])).sent = [.reply b!"9" a]) :
    Answered sampleHost (openSession src) b!"u" src q a := by
  refine ⟨⟨rfl, rfl⟩, ?_, ?_, sampleChoice, b!"9", h⟩
  · exact .opened [] [] ⟨false, b!"null", .didOpen (.given (b!"u", src))⟩ _ _ ⟨rfl, rfl⟩ (by simp)
  · rintro ⟨y, hy, h1, h2⟩
    simp only [openSession, List.mem_singleton] at hy
    subst hy
    cases h2

/-- C50 is false where words touch: with the cursor between two references the edits overlap. -/
theorem C50_false : ∃ es, Answered sampleHost (openSession b!"match \"x\"\"x\"") b!"u" b!"match \"x\"\"x\""
      (.rename ⟨0, 9⟩ b!"y") (.workspaceEdit b!"u" es) ∧ ¬ es.Pairwise fun x y => Apart x.range y.range := by
  refine ⟨[⟨Lsp.onLine 0 6 9, b!"y"⟩, ⟨Lsp.onLine 0 9 12, b!"y"⟩, ⟨Lsp.onLine 0 6 9, b!"y"⟩, ⟨Lsp.onLine 0 9 12, b!"y"⟩],
    open_answered _ _ _ (by decide +kernel), ?_⟩
  simp [Apart, Lsp.onLine]

end Teal.Props
