import Verif.Props.Quote
import Verif.Props.Provide
import Verif.Props.Tools
import Verif.Props.Exact
import Verif.Props.Dead
import Verif.Props.Dap2
import Verif.Props.Process2
import Verif.Props.Operand
import Verif.Props.Doc

/-!
# Cases that meet the hypotheses of theorems

For theorems without such a case beside them: the theorem is applied to it.
-/

namespace Teal.Props

open Teal Spec Teal.Lsp Teal.Lsp.Spec Teal.WireSpec Teal.JsonSpec Teal.Wire

/-- C91: a program that is accepted is valid. -/
example : ∃ os, ValidProgram sampleEnv.addrOk acceptSample (tokens acceptSample) os :=
  (C91_partial sampleEnv acceptSample acceptSample_tidy.1).1 acceptSample_tidy.2

/-- C131: of a literal that is followed by more text. -/
example : GoLiteral b!"a\\n\\\"" b!"a\n\"" ∧ ∀ t w r', GoLiteral t w → b!"a\\n\\\"\": invalid syntax" = t ++ 34 :: r' → w = b!"a\n\"" ∧ r' = b!": invalid syntax" := by
  have h : GoLiteral b!"a\\n\\\"" b!"a\n\"" :=
    .plain 97 _ _ (by decide) (by decide) (by decide) (by decide) (.letter 110 10 _ _ (by decide) (.letter 34 34 _ _ (by decide) .nil))
  refine ⟨h, fun t w r' ht e => ?_⟩
  obtain ⟨h1, h2⟩ := C131_unique (r := b!": invalid syntax") h ht e
  exact ⟨h1.symm, h2.symm⟩

/-- C130: of a text that goes wrong in one place. -/
example : Unbroken b!"YW!j" ∧ ∀ n, Base64Fails b!"YW!j" n → n = 2 := by
  have hu : Unbroken b!"YW!j" := by unfold Unbroken; decide
  refine ⟨hu, fun n hn => (C130_unique hu).2 hn ?_⟩
  exact .other b!"YW" 33 b!"j" (by unfold Symbol64; decide +kernel) (by unfold Symbol64; decide +kernel) (by decide)

/-- C117: what is announced covers a hover. -/
example : Provides (Wire.capabilitiesOut true false) b!"textDocument/hover" :=
  C117_announced (q := .hover ⟨0, 0⟩) (sees_capabilities true false) (.hover _) (by simp) (by simp)

/-- C08, C02 and C06: the words of a text with a string and a comment. -/
example : ∃ ps tail, Decomposes b!"byte \"a b\" // y" (tokens b!"byte \"a b\" // y") ps tail ∧ OneLineStrings ps ∧ ps.length = 3 := by
  obtain ⟨ps, tail, h, -⟩ := C08_lines_agree_partial b!"byte \"a b\" // y"
  have h1 := h.src_eq
  have h2 := h.toks_eq
  refine ⟨ps, tail, h, ?_, ?_⟩
  · intro p hp _ x hx
    have hm : x ∈ b!"byte \"a b\" // y" := by
      rw [h1]
      exact List.mem_append_left _ (List.mem_flatMap.2 ⟨p, hp, List.mem_append_right _ hx⟩)
    have key : ∀ x ∈ b!"byte \"a b\" // y", ¬ Break x := by unfold Break; decide
    exact key x hm
  · have := congrArg List.length h2
    rw [List.length_map] at this
    exact this.symm.trans (by decide +kernel)

/-- C25: places of a text with errors. -/
example : ∃ r, process sampleEnv b!"foo\nb x" = some r ∧ r.diagnostics.length = 3 ∧ ∀ d ∈ r.diagnostics, d.l < 2 := by
  refine ⟨(process sampleEnv b!"foo\nb x").get (by decide +kernel), by simp, by decide +kernel, ?_⟩
  exact fun d hd => ((C25_positions sampleEnv b!"foo\nb x" _ (by simp)).1 d hd).1

/-- C24: a version in hexadecimal, and one that is none. -/
example : ∃ r, process sampleEnv b!"#pragma version 0x10\n#pragma version x" = some r ∧ VersionAt (tokens b!"#pragma version 0x10\n#pragma version x") 2 r.version ∧
    r.version = 16 := by
  refine ⟨(process sampleEnv b!"#pragma version 0x10\n#pragma version x").get (by decide +kernel), by simp, ?_, by decide +kernel⟩
  exact (C24_pragma_partial sampleEnv b!"#pragma version 0x10\n#pragma version x" _ (by simp)).2.1

/-- C38: breakpoints behind the end of the program. -/
example : ∃ w, (Vm.new [.int 1] 8).setBreakpoints [0, 7] = some w := C38_breakpoints_partial _ _ (by decide)

/-- C120: the diagnostic of a number that is too big is on a line of an opcode. -/
example : ∃ r d, process sampleEnv b!"err\nint 18446744073709551616" = some r ∧ d ∈ r.diagnostics ∧ OperandDiag 1 d := by
  refine ⟨(process sampleEnv b!"err\nint 18446744073709551616").get (by decide +kernel), ⟨.parse .badUint64, 1, 4, 24⟩, by simp, by decide +kernel, ?_⟩
  unfold OperandDiag
  decide

end Teal.Props
