import Verif.Props.Commands
import Verif.Props.Cli
import Verif.Props.Complete
import Verif.Props.Corrupt
import Verif.Props.Dead
import Verif.Props.Docs
import Verif.Props.Exact
import Verif.Props.Surplus
import Verif.Props.Linter
import Verif.Props.Process2
import Verif.Props.Frame
import Verif.Props.Doc
import Verif.Props.Instr

/-!
# Cases that meet the hypotheses of theorems, continued

For theorems without such a case beside them: the theorem is applied to it.
-/

namespace Teal.Props

open Teal Spec Teal.Lsp Teal.Lsp.Spec Teal.Frame Teal.Frame.Spec Teal.Cli Teal.CliSpec

/-- C132: a line is removed, a word replaced, a label created, and a version written. -/
example : (∃ es, Executed sampleHost (openSession b!"int 1\nb x") b!"u" b!"int 1\nb x" (.lineRemove b!"u" 0) es ∧ es = [⟨⟨⟨0, 0⟩, ⟨0 + 1, 0⟩⟩, []⟩]) ∧
    (∃ es, Executed sampleHost (openSession b!"int 1\nb x") b!"u" b!"int 1\nb x" (.valueReplace b!"u" (Lsp.onLine 0 4 5) b!"2") es ∧
      es = [⟨Lsp.onLine 0 4 5, b!"2"⟩]) ∧
    (∃ es, Executed sampleHost (openSession b!"int 1\nb x") b!"u" b!"int 1\nb x" (.labelCreate b!"u" b!"x") es ∧
      es = [⟨⟨⟨lineCount (tokens b!"int 1\nb x"), 0⟩, ⟨lineCount (tokens b!"int 1\nb x"), (b!"x" : Bytes).length + 5⟩⟩, b!"\r\n" ++ b!"x" ++ b!":\r\n"⟩]) ∧
    ∃ es, Executed sampleHost (openSession b!"int 1\n#pragma version 2") b!"u" b!"int 1\n#pragma version 2" (.versionUpdate b!"u" 7) es ∧
      es = [⟨Lsp.onLine 1 16 17, b!"7"⟩] := by
  have h1 : Executed sampleHost (openSession b!"int 1\nb x") b!"u" b!"int 1\nb x" (.lineRemove b!"u" 0) [⟨⟨⟨0, 0⟩, ⟨1, 0⟩⟩, []⟩] :=
    open_executed _ _ b!"1" _ (by decide +kernel)
  have h2 : Executed sampleHost (openSession b!"int 1\nb x") b!"u" b!"int 1\nb x" (.valueReplace b!"u" (Lsp.onLine 0 4 5) b!"2") [⟨Lsp.onLine 0 4 5, b!"2"⟩] :=
    open_executed _ _ b!"1" _ (by decide +kernel)
  have h3 : Executed sampleHost (openSession b!"int 1\nb x") b!"u" b!"int 1\nb x" (.labelCreate b!"u" b!"x") [⟨⟨⟨2, 0⟩, ⟨2, 6⟩⟩, b!"\r\nx:\r\n"⟩] :=
    open_executed _ _ b!"1" _ (by decide +kernel)
  exact ⟨⟨_, h1, (C132_line _ _ _ _ _ _ _ h1).2⟩, ⟨_, h2, (C132_value _ _ _ _ _ _ _ _ h2).2⟩, ⟨_, h3, C132_create _ _ _ _ _ _ h3⟩,
    ⟨_, open_executed _ _ b!"1" [⟨Lsp.onLine 1 16 17, b!"7"⟩] (by decide +kernel), rfl⟩⟩

/-- C109: the options of a command line. -/
example : parseFlags [b!"net", b!"addr", b!"debug"] [b!"--addr=:7", b!"-debug", b!"x", b!"dbg", b!"-net"] = .values [(b!"addr", b!":7"), (b!"debug", b!"x")] :=
  (C109_flags (by decide) _ _).2
    (.option (o := [b!"--addr=:7"]) (by decide) .joined2 (.option (o := [b!"-debug", b!"x"]) (by decide) .apart (.plain _ (.inl (by decide)))))

/-- C29: the code behind `err` is not executed. -/
example : ⟨1, .unreachable⟩ ∈ lintErrs sampleOrder [.plain .err, .plain .pop] ∧ ¬ Steps [.plain .err, .plain .pop] (0, []) (1, []) := by
  have h : (⟨1, .unreachable⟩ : LintErr) ∈ lintErrs sampleOrder [.plain .err, .plain .pop] := by decide +kernel
  exact ⟨h, C29_unreachable_sound _ _ _ h []⟩

/-- C32: a second `#pragma version`. -/
example : ⟨1, .pragmaAfterInstr⟩ ∈ lintErrs sampleOrder [.pragma 8, .pragma 8] :=
  (C32_pragma_position sampleOrder [.pragma 8, .pragma 8] 1 8 rfl).2 ⟨0, .pragma 8, by decide, rfl, .inr ⟨8, rfl⟩⟩

/-- C22: an instruction of a later version, and one of another mode. -/
example : ∃ r x y, process sampleEnv b!"sha3_256\narg 0" = some r ∧ x ∈ r.diagnostics ∧ y ∈ r.diagnostics ∧ x.kind = .version 7 1 ∧ x.l = 0 ∧
    (∃ k t, (words (tokens b!"sha3_256\narg 0") k).head? = some t ∧ x.l = k ∧ x.b = t.b ∧ x.e = t.e ∧ ∃ d ∈ docOps, d.name = t.v) := by
  have hm : (⟨.version 7 1, 0, 0, 8⟩ : Diag) ∈ ((process sampleEnv b!"sha3_256\narg 0").get (by decide +kernel)).diagnostics := by decide +kernel
  exact ⟨(process sampleEnv b!"sha3_256\narg 0").get (by decide +kernel), _, _, by simp, hm, hm, rfl, rfl,
    C22_only sampleEnv _ _ (by simp) _ hm (.inr ⟨_, _, rfl⟩)⟩

/-- C123: the missing label of a line behind one with too many values. -/
example : ∃ r, process sampleEnv b!"pop 1\nb x\nint 1\n\n" = some r ∧ Overlong r 0 ∧ ∃ d ∈ r.diagnostics, d.kind = .lint (.missingLabel b!"x") ∧ d.l = 2 := by
  refine ⟨(process sampleEnv b!"pop 1\nb x\nint 1\n\n").get (by decide +kernel), by simp, by unfold Overlong; decide +kernel, ?_⟩
  refine (C123_missing sampleEnv b!"pop 1\nb x\nint 1\n\n" _ (by simp) 2 b!"x").2 ⟨1, by decide +kernel, ⟨⟨b!"x", 1, 2, 3, .value⟩, by decide +kernel, rfl⟩, ?_⟩
  rintro ⟨-, k, t, h1, h2⟩
  have h3 : t ∈ tokens b!"pop 1\nb x\nint 1\n\n" := by
    have := List.mem_of_mem_head? h1
    unfold words at this
    simp only [List.mem_filter] at this
    exact this.1
  exact (by decide +kernel : ∀ t ∈ tokens b!"pop 1\nb x\nint 1\n\n", t.v ≠ b!"x" ++ [chColon]) t h3 h2

/-- C49: two messages, one of them empty. -/
example : bodies ([b!"{}", []].flatMap writeFrame) = ([b!"{}", []], false) := C49 _ (by decide)

/-- C10: two ranges on a line that meet. -/
example : ∃ p, InRange p ⟨1, 2, 1, 5⟩ ∧ InRange p ⟨1, 4, 1, 9⟩ :=
  C10_sound ⟨1, 2, 1, 5⟩ ⟨1, 4, 1, 9⟩ (by unfold WellFormed Pos.before; decide) (by unfold WellFormed Pos.before; decide) (by decide)

/-- C14: a text in hexadecimal, and one in base64. -/
example : HexOf b!"0aF" [] ∨ HexOf b!"0aFf" [10, 255] := .inr ((C14_hex_exact _ _).1 (by decide +kernel))
example : Base64Of b!"YWI=" b!"ab" := (C14_base64_exact _ _ (.inl (by decide))).1 (by decide +kernel)

end Teal.Props
