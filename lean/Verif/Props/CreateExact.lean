import Verif.Props.Actions2
import Verif.Props.Print

/-!
# Which fixes that create a label define it
-/

namespace Teal.Props

open Teal Teal.Spec Teal.Lsp Teal.Lsp.Spec

/-- No text defines a label whose name begins with a quote: a word with a colon at its end is not quoted. -/
theorem C81_quoted (src n : Bytes) (hn : n.head? = some chQuote) : ¬ DefinesLabel src n := by
  rintro ⟨hne, k, t, ht, hv⟩
  have hw := words_ok src k t.v (List.mem_map.2 ⟨t, List.mem_of_mem_head? ht, rfl⟩)
  rw [hv] at hw
  rcases hw with hb | ⟨body, hb⟩
  · apply hb.2.1
    cases n with
    | nil => exact absurd rfl hne
    | cons c n => exact hn
  · have h1 := congrArg List.getLast? hb
    rw [← List.cons_append] at h1
    rw [List.getLast?_concat, List.getLast?_concat] at h1
    exact absurd h1 (by decide)

/-- **C81** (exactly.)  Of the labels whose creation is offered, those are defined after the fix whose name
does not begin with a quote, in texts without a lexical error whose strings are on one line. -/
theorem C81_exact (h : Host) (ms : List (Choice × Msg)) (u src n : Bytes) (rg : Rg) (cs : List Action)
    (ho : Answered h ms u src (.codeAction rg) (.codeActions cs)) (hc : .labelCreate u n ∈ cs.map (·.command)) (es : List TextEdit)
    (ha : Executed h ms u src (.labelCreate u n) es) (he : (readTokens src).2 = []) (hone : OneLine (tokens src))
    (env : Env) (henv : env.addrOk = h.addrOk) (r : ProcessResult) (hr : process env src = some r) (hs : NoSurplus r) :
    (∃ e src', es = [e] ∧ Applied src e src' ∧ DefinesLabel src' n) ↔ n.head? ≠ some chQuote := by
  constructor
  · rintro ⟨e, src', -, -, hd⟩ hn
    exact C81_quoted src' n hn hd
  · intro hn
    obtain ⟨cs', hcs, -, h1, -⟩ := C79_partial h ms u src rg _ ho env henv r hr
    cases hcs
    obtain ⟨-, -, t, ht, rfl, -⟩ := h1 u n hc
    have hp : PlainWord t.v := by
      rcases words_ok src t.l t.v (List.mem_map.2 ⟨t, (labelOperands_sublist _).subset ht, rfl⟩) with hb | ⟨body, hb⟩
      · exact hb
      · rw [hb] at hn
        exact absurd rfl hn
    obtain ⟨e, src', h2, h3, h4, -⟩ := C81_partial h ms u src t.v es ha hp he hone env r hr hs
    exact ⟨e, src', h2, h3, h4⟩

/-- The text of `C81_false` and one with a plain label. -/
example : (Answered sampleHost (openSession b!"b \"x\"") b!"u" b!"b \"x\"" (.codeAction ⟨⟨0, 2⟩, ⟨0, 2⟩⟩)
      (.codeActions [⟨b!"Create label '\"x\"'", b!"Create label", .labelCreate b!"u" b!"\"x\""⟩,
        ⟨b!"Update version to 2", b!"Update version", .versionUpdate b!"u" 2⟩]) ∧
    Executed sampleHost (openSession b!"b \"x\"") b!"u" b!"b \"x\"" (.labelCreate b!"u" b!"\"x\"")
      [⟨⟨⟨1, 0⟩, ⟨1, 8⟩⟩, b!"\r\n\"x\":\r\n"⟩] ∧ (readTokens b!"b \"x\"").2 = [] ∧ OneLine (tokens b!"b \"x\"")) ∧
    (Answered sampleHost (openSession b!"b y") b!"u" b!"b y" (.codeAction ⟨⟨0, 2⟩, ⟨0, 2⟩⟩)
      (.codeActions [⟨b!"Create label 'y'", b!"Create label", .labelCreate b!"u" b!"y"⟩,
        ⟨b!"Update version to 2", b!"Update version", .versionUpdate b!"u" 2⟩]) ∧ (readTokens b!"b y").2 = [] ∧ OneLine (tokens b!"b y")) :=
  ⟨⟨open_answered _ _ _ (by decide +kernel), open_executed _ _ b!"1" _ (by decide +kernel), by decide +kernel, by unfold OneLine; decide +kernel⟩,
    open_answered _ _ _ (by decide +kernel), by decide +kernel, by unfold OneLine; decide +kernel⟩

end Teal.Props
