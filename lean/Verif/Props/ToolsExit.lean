import Verif.Props.Tools
import Verif.Props.Panic
import Verif.Props.Cli

/-!
# How the small tools end when a text cannot be analysed
-/

namespace Teal.Props

open Teal Teal.Spec Teal.Cli Teal.CliSpec

/-- **C116** (panics).  A text that cannot be analysed, which C17 says exactly, ends the linter and the
interpreter with status 2, and nothing is printed; any other text ends the linter with status 0. -/
theorem C116_panic {env : Env} {operand : Diag → Bytes} {read : Bytes → Option Bytes} {words : List Bytes} {p src src' : Bytes}
    (hw : Names words p) (hr : read p = some src) (hp : Padded src src') : ∃ r, process env src' = some r ∧
      ((∃ d ∈ r.diagnostics, (∃ rule, d.kind = .lint rule) ∧ lineCount (tokens src) ≤ d.l) →
        lint env operand read words = (2, []) ∧ ∀ status, interprets env read words status ↔ status = 2) ∧
      ((¬ ∃ d ∈ r.diagnostics, (∃ rule, d.kind = .lint rule) ∧ lineCount (tokens src) ≤ d.l) →
        (lint env operand read words).1 = 0 ∧ ∀ status, interprets env read words status → status = 0) := by
  obtain ⟨r, h1, h2⟩ := C17_exact env src src' hp
  refine ⟨r, h1, fun h => ?_, fun h => ?_⟩
  · have h0 := h2.2 h
    constructor
    · unfold lint
      rw [withFile_eq hw hr, h0]
    · intro status
      unfold interprets
      rw [withFile_eq hw hr, h0]
  · cases h0 : process env src with
    | none => exact absurd (h2.1 h0) h
    | some s =>
      obtain ⟨lines, h3, -⟩ := C116_lint (operand := operand) hw hr h0
      exact ⟨by rw [h3], fun status hs => (((C116_interpret_partial hw hr h0).1 status).1 hs).1⟩

/-- The text of `C17_false`: the linter finds an unused label behind the last line. -/
example : lint sampleEnv (fun _ => []) (sampleRead b!"pop 1\na:") [b!"-path=a.teal"] = (2, []) := by
  obtain ⟨r, h1, h2, -⟩ := C116_panic (env := sampleEnv) (operand := fun _ => []) (read := sampleRead b!"pop 1\na:") sampleNames rfl
    (padded b!"pop 1\na:" (by decide +kernel) 4 (by decide +kernel))
  have h3 : (process sampleEnv (b!"pop 1\na:" ++ lineBreaks 4)).map (fun r => r.diagnostics.map (fun d => (d.kind, d.l))) =
      some [(.parse .tooManyValues, 0), (.lint (.unusedLabel b!"a"), 2)] := by decide +kernel
  have h4 : lineCount (tokens b!"pop 1\na:") = 2 := by decide +kernel
  rw [h1] at h3
  injection h3 with h3
  dsimp only at h3
  have h5 : (DiagKind.lint (.unusedLabel b!"a"), 2) ∈ r.diagnostics.map (fun d => (d.kind, d.l)) := by rw [h3]; simp
  obtain ⟨d, hd, he⟩ := List.mem_map.1 h5
  injection he with he1 he2
  exact (h2 ⟨d, hd, ⟨_, he1⟩, by rw [h4, he2]; decide⟩).1

/-- **C116** (command lines).  A command line that is wrong, or asks for help, ends all three tools alike: at once,
with status 2 or 0, and without anything printed to standard output. -/
theorem C116_usage {env : Env} {operand : Diag → Bytes} {read : Bytes → Option Bytes} {words : List Bytes} (hw : ¬ ∃ p, Names words p) :
    ∃ n, (n = 0 ∨ n = 2) ∧ tokenize read words = (n, []) ∧ lint env operand read words = (n, []) ∧
      ∀ status, interprets env read words status ↔ status = n := by
  unfold tokenize lint interprets withFile
  cases h : parseFlags [b!"path"] words with
  | values l => exact absurd ⟨_, l, (C109_flags (by decide) words l).1 h, value_iff.2 rfl⟩ hw
  | help => exact ⟨0, .inl rfl, rfl, rfl, fun _ => Iff.rfl⟩
  | wrong => exact ⟨2, .inr rfl, rfl, rfl, fun _ => Iff.rfl⟩

/-- An option no tool has. -/
example : ¬ ∃ p, Names [b!"-file=a.teal"] p := by
  rintro ⟨p, l, h, -⟩
  have h1 := (C109_flags (names := [b!"path"]) (by decide) [b!"-file=a.teal"] l).2 h
  have h2 : parseFlags [b!"path"] [b!"-file=a.teal"] = .wrong := by decide +kernel
  rw [h2] at h1
  cases h1

end Teal.Props
