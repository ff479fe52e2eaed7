import Verif.Lemmas.TokenAt
import Verif.Lemmas.LineEdit
import Verif.Props.Accept
import Verif.Props.Process2
import Verif.Props.Actions
import Verif.Spec.Diagnose

/-!
# The diagnostics an editor gets
-/

namespace Teal.Lsp

open Teal Teal.Spec Teal.Lsp.Spec

/-- What is answered comes from the analysis of the text. -/
theorem diagnosed {h : Host} {ms : List (Choice × Msg)} {u t : Bytes} {items : List LspDiag}
    (ha : Diagnosed h ms u t items) : ∃ mp r, process ⟨h.addrOk, mp⟩ t = some r ∧ doDiagnostic r = .diagnostics items := by
  obtain ⟨hrun, hopen, hup, ch, id, hs⟩ := ha
  have hsh : (run h ms).st.shutdown = false := by
    rw [← Bool.not_eq_true, shutdown_iff h ms hrun]; exact hup
  have inv := session_inv h ms hrun hsh
  obtain ⟨d, hd, rfl⟩ := (inv.texts u t).1 hopen
  rw [run_running hrun] at hs
  simp only [handle, handleRequest, hsh, Bool.false_eq_true, if_false, hd] at hs
  cases hres : results h ch (run h ms).st u d with
  | none => rw [hres] at hs; simp at hs
  | some x =>
    obtain ⟨st', r⟩ := x
    simp only [hres] at hs
    simp only [Option.map_some, List.append_cancel_left_eq, List.cons.injEq, Sent.reply.injEq, true_and, and_true] at hs
    rcases results_spec hres with ⟨h1, _⟩ | ⟨_, h1, _⟩
    · obtain ⟨x, _, hp⟩ := inv.cache u d r hd h1
      exact ⟨_, r, hp, hs⟩
    · exact ⟨_, r, h1, hs⟩

/-- The words and comments of a text begin and end at positions of the text. -/
theorem token_at {src : Bytes} (hone : OneLine (readTokens src).1) {t : Token} (ht : t ∈ (readTokens src).1) (hne : t.t ≠ .eol) :
    ∃ o n : Nat, t.e = t.b + n ∧ At src t.l t.b o ∧ At src t.l t.e (o + n) := by
  obtain ⟨err, hl, -⟩ := readTokens_lexes src
  exact lexes_at hl [] (by simp) rfl rfl hone t ht hne

theorem lineTokens_ne {src : Bytes} {k : Nat} {t : Token} (h : t ∈ lineTokens (readTokens src).1 k) : t.t ≠ .eol := by
  unfold lineTokens at h
  split at h
  · unfold comments at h
    simp only [List.mem_filter, Bool.and_eq_true, decide_eq_true_eq] at h
    rw [h.2.2]; simp
  · rw [(mem_words.1 h).2.2]; simp

end Teal.Lsp

namespace Teal.Props

open Teal Spec P Teal.Lsp Teal.Lsp.Spec

theorem shows_map (r : ProcessResult) (items : List LspDiag) (h : doDiagnostic r = .diagnostics items) :
    items.length = r.diagnostics.length ∧ ∀ (i : Nat) (it : LspDiag) (d : Diag), items[i]? = some it → r.diagnostics[i]? = some d → Shows it d := by
  unfold doDiagnostic at h
  injection h with h
  subst h
  refine ⟨by simp, ?_⟩
  intro i it d h1 h2
  rw [List.getElem?_map, h2, Option.map_some, Option.some.injEq] at h1
  subst h1
  refine ⟨rfl, rfl, rfl, rfl, rfl, ?_⟩
  obtain ⟨k, l, b, e⟩ := d
  cases k with
  | lint rule =>
    cases rule <;> first
      | exact .inl ⟨rfl, by constructor⟩
      | exact .inr ⟨rfl, by rintro ⟨⟩⟩
  | _ => exact .inr ⟨rfl, by rintro ⟨⟩⟩

/-- **C92** What the editor is told is what the analysis of the text it sent last finds: nothing is left
out, added or moved, and exactly the findings that make a program invalid are errors. -/
theorem C92_items {h : Host} {ms : List (Choice × Msg)} {u t : Bytes} {items : List LspDiag} (ha : Diagnosed h ms u t items) :
    ∃ mp r, process ⟨h.addrOk, mp⟩ t = some r ∧ items.length = r.diagnostics.length ∧
      ∀ (i : Nat) (it : LspDiag) (d : Diag), items[i]? = some it → r.diagnostics[i]? = some d → Shows it d := by
  obtain ⟨mp, r, hr, hd⟩ := diagnosed ha
  exact ⟨mp, r, hr, shows_map r items hd⟩

/-- **C92** (partial: for tidy texts, see `C91_false`.)  The editor shows no error exactly if the text is a
valid program. -/
theorem C92_valid_partial {h : Host} {ms : List (Choice × Msg)} {u t : Bytes} {items : List LspDiag} (ha : Diagnosed h ms u t items)
    (ht : Tidy (tokens t)) : (∀ it ∈ items, it.severity ≠ 1) ↔ ∃ os, ValidProgram h.addrOk t (tokens t) os := by
  obtain ⟨mp, r, hr, hd⟩ := diagnosed ha
  rw [← noErrors_iff ⟨h.addrOk, mp⟩ t r hr ht]
  unfold doDiagnostic at hd
  injection hd with hd
  subst hd
  simp only [List.forall_mem_map, NoErrors]
  refine forall_congr' fun d => forall_congr' fun _ => not_congr ?_
  cases severity d.kind <;> simp [Severity.number]

/-- A place in the text: line `l`, character `c`, counted from 0 and in bytes. -/
def IsPlace (src : Bytes) (p : Pos) : Prop := ∃ l c o : Nat, p.line = l ∧ p.character = c ∧ At src l c o

/-- **C92** (partial: in texts without strings over several lines, closed or not, see `C92_false`.)  What the editor is told
to underline is in the text: every range begins and ends on one line, at places that exist in the text, and
the end is not before the begin. -/
theorem C92_ranges_partial {h : Host} {ms : List (Choice × Msg)} {u t : Bytes} {items : List LspDiag} (ha : Diagnosed h ms u t items)
    (hone : OneLine (tokens t))
    (hopen : ∀ pre s, t = pre ++ chQuote :: s → (readTokens pre).2 = [] → OpensLiteral readTokens pre → NoQuote chQuote s → ∀ x ∈ s, ¬ Break x) :
    ∀ it ∈ items, IsPlace t it.range.start ∧ IsPlace t it.range.stop ∧ it.range.start.line = it.range.stop.line ∧
      it.range.start.character ≤ it.range.stop.character := by
  obtain ⟨mp, r, hr, hd⟩ := diagnosed ha
  unfold doDiagnostic at hd
  injection hd with hd
  subst hd
  simp only [List.forall_mem_map]
  intro d hd
  suffices hpos : (∃ o, At t d.l d.b o) ∧ (∃ o, At t d.l d.e o) ∧ d.b ≤ d.e by
    obtain ⟨⟨o, h1⟩, ⟨o', h2⟩, h3⟩ := hpos
    exact ⟨⟨d.l, d.b, o, rfl, rfl, h1⟩, ⟨d.l, d.e, o', rfl, rfl, h2⟩, rfl, Int.ofNat_le.2 h3⟩
  obtain ⟨os, hrun, hasm⟩ := process_run hr
  obtain ⟨lds, hl, -, hdiag, -⟩ := assemble_eq hasm
  have hlt := (lintDiags_some _ _).1 ⟨lds, hl⟩
  rw [hdiag] at hd
  simp only [List.mem_append] at hd
  rcases hd with (hd | hd) | hd
  · -- a string that is not closed
    by_cases hlex : (readTokens t).2 = []
    · rw [hlex] at hd; cases hd
    · obtain ⟨pre, s, rfl, h1, h2, h3⟩ := (C05_error_iff t).1 hlex
      rw [C05_position_partial pre s h1 h2 h3 (by rw [← C05_tokens_before pre s h1 h2 h3]; exact hone) (hopen pre s rfl h1 h2 h3)] at hd
      simp only [List.map_cons, List.map_nil, List.mem_singleton] at hd
      subst hd
      have hat : At (pre ++ chQuote :: s) (breaks (pre ++ chQuote :: s)) (column (pre ++ chQuote :: s)) (pre ++ chQuote :: s).length :=
        ⟨pre ++ chQuote :: s, [], by simp, rfl, rfl, rfl, by simp⟩
      exact ⟨⟨_, hat⟩, ⟨_, hat⟩, Nat.le_refl _⟩
  · obtain ⟨o, ho, hmem⟩ := List.mem_flatMap.1 hd
    obtain ⟨s', line, hline, hf⟩ := hrun.mem o ho
    obtain ⟨w, hw, h1, h2, h3⟩ := hf.diagPos d hmem
    obtain ⟨k, hk⟩ := List.mem_iff_getElem?.1 hline
    have hw' := ((linesOf_get t k line).1 hk).2 ▸ hw
    obtain ⟨o, n, hn, ha1, ha2⟩ := token_at hone (mem_lineTokens hw').1 (lineTokens_ne hw')
    rw [h1, h2, h3]
    exact ⟨⟨_, ha1⟩, ⟨_, ha2⟩, by omega⟩
  · rw [lintDiags_eq _ _ _ hl] at hd
    obtain ⟨e, he, rfl⟩ := List.mem_map.1 hd
    have h1 := hlt e he
    rw [linesOf_length] at h1
    have h2 := lineCount_le t
    simp only [(linesOf_get t e.l _).2 ⟨h1, rfl⟩, Option.getD_some]
    refine ⟨?_, ?_, lineBegin_le t e.l⟩
    · unfold lineBegin
      cases hh : (lineTokens (readTokens t).1 e.l).head? with
      | none =>
        obtain ⟨a, b, hab, hk, hbef⟩ := line_start t e.l (by omega)
        exact ⟨a.length, hab ▸ at_here hk.symm hbef.column.symm hbef.split⟩
      | some w =>
        have hw := List.mem_of_head? hh
        obtain ⟨o, n, -, ha1, -⟩ := token_at hone (mem_lineTokens hw).1 (lineTokens_ne hw)
        rw [(mem_lineTokens hw).2] at ha1
        exact ⟨_, ha1⟩
    · unfold lineEnd
      cases hh : (lineTokens (readTokens t).1 e.l).getLast? with
      | none =>
        obtain ⟨a, b, hab, hk, hbef⟩ := line_start t e.l (by omega)
        exact ⟨a.length, hab ▸ at_here hk.symm hbef.column.symm hbef.split⟩
      | some w =>
        have hw := List.mem_of_getLast? hh
        obtain ⟨o, n, -, -, ha2⟩ := token_at hone (mem_lineTokens hw).1 (lineTokens_ne hw)
        rw [(mem_lineTokens hw).2] at ha2
        exact ⟨_, ha2⟩

theorem open_diagnosed (src : Bytes) (items : List LspDiag)
    (h : (run sampleHost (openSession src ++ [(sampleChoice, ⟨false, b!"9", .diagnostic (.given b!"u")⟩)])).sent =
      [.reply b!"9" (.diagnostics items)]) : Diagnosed sampleHost (openSession src) b!"u" src items := by
  refine ⟨⟨rfl, rfl⟩, ?_, ?_, sampleChoice, b!"9", h⟩
  · exact .opened [] [] ⟨false, b!"null", .didOpen (.given (b!"u", src))⟩ _ _ ⟨rfl, rfl⟩ (by simp)
  · rintro ⟨y, hy, h1, h2⟩
    simp only [openSession, List.mem_singleton] at hy
    subst hy
    cases h2

/-- An unknown word, a missing label and a label nothing refers to: two errors and a warning. -/
example : Diagnosed sampleHost (openSession b!"#pragma version 8\nfoo\nb x\ny:") b!"u" b!"#pragma version 8\nfoo\nb x\ny:"
    [⟨Lsp.onLine 1 0 3, 1, .parse (.unknownOpcode b!"foo")⟩, ⟨Lsp.onLine 3 0 2, 2, .lint (.unusedLabel b!"y")⟩, ⟨Lsp.onLine 2 0 3, 1, .lint (.missingLabel b!"x")⟩] ∧
    OneLine (tokens b!"#pragma version 8\nfoo\nb x\ny:") ∧ (readTokens b!"#pragma version 8\nfoo\nb x\ny:").2 = [] :=
  ⟨open_diagnosed _ _ (by decide +kernel), by unfold OneLine; decide +kernel, by decide +kernel⟩

/-- A string that is not closed, behind a line break: the hypotheses of `C92_ranges_partial` are met. -/
example : Diagnosed sampleHost (openSession b!"int 1\nbyte \"ab") b!"u" b!"int 1\nbyte \"ab"
      [⟨Lsp.onLine 1 8 8, 1, .lex .incompleteString⟩, ⟨Lsp.onLine 1 0 4, 1, .parse .missingArg⟩] ∧
    OneLine (tokens b!"int 1\nbyte \"ab") ∧
    ∀ pre s, b!"int 1\nbyte \"ab" = pre ++ chQuote :: s → (readTokens pre).2 = [] → OpensLiteral readTokens pre → NoQuote chQuote s →
      ∀ x ∈ s, ¬ Break x := by
  refine ⟨open_diagnosed _ _ (by decide +kernel), by unfold OneLine; decide +kernel, ?_⟩
  intro pre s hs _ _ _
  have hd : s = (b!"int 1\nbyte \"ab").drop (pre.length + 1) := by rw [hs]; simp
  have hq : (b!"int 1\nbyte \"ab")[pre.length]? = some chQuote := by rw [hs]; simp
  have hlen : pre.length < 14 := (List.getElem?_eq_some_iff.1 hq).1
  have : ∀ n < 14, (b!"int 1\nbyte \"ab")[n]? = some chQuote → ∀ x ∈ (b!"int 1\nbyte \"ab").drop (n + 1), ¬ Break x := by decide +kernel
  rw [hd]
  exact this _ hlen hq

/-- The text of C91 without findings, in an editor. -/
example : Diagnosed sampleHost (openSession acceptSample) b!"u" acceptSample [] := open_diagnosed _ _ (by decide +kernel)

/-- C92 is false of texts with strings over several lines: what is behind the string is said to be on the
line the string begins on, where there are not so many characters. -/
theorem C92_false : ∃ (t : Bytes) (items : List LspDiag) (it : LspDiag), Diagnosed sampleHost (openSession t) b!"u" t items ∧ it ∈ items ∧
    ¬ IsPlace t it.range.start := by
  refine ⟨b!"byte \"a\nb\" x", [⟨Lsp.onLine 0 11 12, 1, .parse .tooManyValues⟩], ⟨Lsp.onLine 0 11 12, 1, .parse .tooManyValues⟩,
    open_diagnosed _ _ (by decide +kernel), by simp, ?_⟩
  rintro ⟨l, c, o, h1, h2, pre, post, h3, h4, h5, h6, -⟩
  have hl : l = 0 := by simp [Lsp.onLine] at h1; omega
  have hc : c = 11 := by simp [Lsp.onLine] at h2; omega
  subst hl; subst hc
  have hp : pre = (b!"byte \"a\nb\" x").take pre.length := by rw [h3, List.take_left]
  have hlen : pre.length < 14 := by
    have := congrArg List.length h3
    rw [List.length_append] at this
    have h : (b!"byte \"a\nb\" x").length = 12 := by decide
    omega
  have : ∀ n < 14, ¬ (breaks ((b!"byte \"a\nb\" x").take n) = 0 ∧ column ((b!"byte \"a\nb\" x").take n) = 11) := by decide +kernel
  exact this _ hlen ⟨by rw [← hp, h5], by rw [← hp, h6]⟩

end Teal.Props
