import Verif.Props.Actions2
import Verif.Props.Edit

/-!
# Preparing a rename, and formatting

C83: what the editor shows before a rename.  C84: formatting replaces the text.
-/

namespace Teal.Lsp
open Teal Teal.Spec Teal.Lsp.Spec Teal.Props

/-- Behind the last line with a token there are only blanks. -/
theorem rest_blank {src : Bytes} (he : (readTokens src).2 = []) (hone : OneLine (tokens src)) :
    ∃ p m, src = p ++ m ∧ Place src (lineCount (tokens src)) 0 p.length ∧ ∀ x ∈ m, Blank x := by
  by_cases hk : lineCount (tokens src) ≤ breaks src
  · have hlt := line_lt_count src
    obtain ⟨p, m, b, T1, Tm, Tb, hc⟩ := cuts src _ hk he hone
    have hTm : Tm = [] := by
      rcases hTm' : Tm with _ | ⟨t, _⟩
      · rfl
      · have h1 := hc.tm t (by rw [hTm']; simp)
        have h2 := hlt t (by unfold tokens; rw [hc.tokens, hTm']; simp)
        omega
    have hTb : Tb = [] := by
      rcases hTb' : Tb with _ | ⟨t, _⟩
      · rfl
      · have h1 := hc.tb t (by rw [hTb']; simp)
        have h2 := hlt t (by unfold tokens; rw [hc.tokens, hTb']; simp)
        omega
    subst hTm hTb
    refine ⟨p, m ++ b, hc.text, hc.start, fun x hx => ?_⟩
    rcases List.mem_append.1 hx with hx | hx
    · exact blanks_lexes hc.mid rfl rfl x hx
    · exact blanks_lexes hc.lex rfl rfl x hx
  · exact ⟨src, [], by simp, .textEnd (by omega), by simp⟩

end Teal.Lsp

namespace Teal.Props
open Teal Teal.Spec Teal.Lsp Teal.Lsp.Spec

/-- **C83** (partial: the range is the place of the label for words without quotes; see `C83_false`.)
Before a rename the editor is shown a label under the cursor, and where it stands; if there is none, it
is told so. -/
theorem C83_partial (h : Host) (ms : List (Choice × Msg)) (u src : Bytes) (p : Pos) (a : Result)
    (ha : Answered h ms u src (.prepareRename p) a) :
    (a = .emptyObject ∧ ¬ ∃ t n, Under (tokens src) p t n) ∨
    ∃ t n, Under (tokens src) p t n ∧ a = .prepareRename (Lsp.onLine t.l t.b (t.b + n.length)) n ∧
      (t.v.head? ≠ some chQuote → Occurs (tokens src) n t.l t.b (t.b + n.length)) := by
  obtain ⟨ch, mp, r, hr, hans⟩ := answered ha
  simp only [answer, Option.some.injEq] at hans
  cases hs : r.symbolsWithin p.range with
  | cons s rest =>
    rw [hs] at hans
    obtain ⟨t, h1, h2, h3, h4⟩ := under_symbol hr (p := p) (s := s) (by rw [hs]; simp)
    refine .inr ⟨t, s.name, h1, ?_, fun _ => ?_⟩
    · rw [← hans, ← h2, ← h3]
    · obtain ⟨w, h5, h6, h7, h8⟩ := (mem_symbols hr s.name s.l s.b s.e).1 ⟨s, by
        have : s ∈ r.symbolsWithin p.range := by rw [hs]; simp
        exact (List.mem_filter.1 this).1, rfl, rfl, rfl, rfl⟩
      rw [← h2, ← h3, ← h7]
      exact .definition _ w h5 h6
  | nil =>
    rw [hs] at hans
    dsimp only at hans
    cases ht : r.symbolRefsWithin p.range with
    | cons t rest =>
      rw [ht] at hans
      have hm : t ∈ r.symbolRefsWithin p.range := by rw [ht]; simp
      have hu := (under_iff hr p t t.v).2 (.inr ⟨hm, rfl⟩)
      refine .inr ⟨t, t.v, hu, hans.symm, fun hq => ?_⟩
      have hop := (mem_refs hr t).1 (List.mem_filter.1 hm).1
      have hw := mem_words.1 (under_token hu).1
      rw [← bare_width hw.1 hw.2.2 hq]
      exact .reference _ t hop rfl
    | nil =>
      rw [ht] at hans
      refine .inl ⟨hans.symm, ?_⟩
      rintro ⟨t, n, hu⟩
      rcases (under_iff hr p t n).1 hu with ⟨s, h1, -⟩ | ⟨h1, -⟩
      · rw [hs] at h1; cases h1
      · rw [ht] at h1; cases h1

/-- On a definition, on a reference, and on neither. -/
example : Answered sampleHost (openSession b!"x:\nb x") b!"u" b!"x:\nb x" (.prepareRename ⟨0, 1⟩) (.prepareRename (Lsp.onLine 0 0 1) b!"x") ∧
    Answered sampleHost (openSession b!"x:\nb x") b!"u" b!"x:\nb x" (.prepareRename ⟨1, 2⟩) (.prepareRename (Lsp.onLine 1 2 3) b!"x") ∧
    Answered sampleHost (openSession b!"x:\nb x") b!"u" b!"x:\nb x" (.prepareRename ⟨1, 0⟩) .emptyObject :=
  ⟨open_answered _ _ _ (by decide +kernel), open_answered _ _ _ (by decide +kernel), open_answered _ _ _ (by decide +kernel)⟩

/-- **C83** fails for words in quotes: where the word has a quote behind a backslash, the range shown
ends before the word, while the rename replaces the whole word. -/
theorem C83_false : Answered sampleHost (openSession b!"b \"\\\"\"") b!"u" b!"b \"\\\"\"" (.prepareRename ⟨0, 3⟩)
      (.prepareRename (Lsp.onLine 0 2 5) b!"\"\"\"") ∧
    Answered sampleHost (openSession b!"b \"\\\"\"") b!"u" b!"b \"\\\"\"" (.rename ⟨0, 3⟩ b!"y")
      (.workspaceEdit b!"u" [⟨Lsp.onLine 0 2 6, b!"y"⟩]) :=
  ⟨open_answered _ _ _ (by decide +kernel), open_answered _ _ _ (by decide +kernel)⟩

/-- **C84** (partial: for texts without a lexical error whose strings are on one line; see `C84_false`.)
Formatting answers with one edit, which replaces the text by what the formatter makes of it; blanks
behind the last line break may stay. -/
theorem C84_partial (h : Host) (ms : List (Choice × Msg)) (u src : Bytes) (a : Result)
    (ha : Answered h ms u src .formatting a) (he : (readTokens src).2 = []) (hone : OneLine (tokens src)) :
    ∃ e pre post, a = .textEdits [e] ∧ src = pre ++ post ∧ (∀ x ∈ post, Blank x) ∧ Applied src e (h.format src ++ post) := by
  obtain ⟨ch, mp, r, hr, hans⟩ := answered ha
  simp only [answer, Option.some.injEq] at hans
  obtain ⟨p, m, h1, h2, h3⟩ := rest_blank he hone
  refine ⟨_, p, m, hans.symm, h1, h3, 0, 0, lineCount (tokens src), 0, 0, p.length, ?_, .there _ ?_, h2, Nat.zero_le _, ?_⟩
  · rw [lines_length hr]; rfl
  · exact at_here (pre := []) rfl rfl (by simp)
  · rw [List.take_zero, List.nil_append]
    congr 1
    generalize hp : p.length = k
    rw [h1, ← hp, List.drop_left]

example : Answered sampleHost (openSession b!"int 1\nerr\n ") b!"u" b!"int 1\nerr\n " .formatting
      (.textEdits [⟨⟨⟨0, 0⟩, ⟨2, 0⟩⟩, b!"int 1\nerr\n "⟩]) ∧ (readTokens b!"int 1\nerr\n ").2 = [] ∧ OneLine (tokens b!"int 1\nerr\n ") :=
  ⟨open_answered _ _ _ (by decide +kernel), by decide +kernel, by unfold OneLine; decide +kernel⟩

/-- **C84** fails when a string goes on over a line break: the edit ends too early, and the end of the
old text stays behind the new one. -/
theorem C84_false : Answered sampleHost (openSession b!"byte \"\n\"\nerr") b!"u" b!"byte \"\n\"\nerr" .formatting
      (.textEdits [⟨⟨⟨0, 0⟩, ⟨2, 0⟩⟩, sampleHost.format b!"byte \"\n\"\nerr"⟩]) ∧
    Applied b!"byte \"\n\"\nerr" ⟨⟨⟨0, 0⟩, ⟨2, 0⟩⟩, sampleHost.format b!"byte \"\n\"\nerr"⟩ (sampleHost.format b!"byte \"\n\"\nerr" ++ b!"err") := by
  refine ⟨open_answered _ _ _ (by decide +kernel), 0, 0, 2, 0, 0, 9, rfl, .there _ ?_, .there _ ?_, by decide, by decide⟩
  · exact at_here (pre := []) rfl rfl (by simp)
  · exact ⟨b!"byte \"\n\"\n", b!"err", by decide, rfl, by decide, by decide, by decide⟩

end Teal.Props
