import Verif.Spec.Rename

/-!
# Specification: the diagnostics an editor gets
-/

namespace Teal.Lsp.Spec

open Teal Teal.Spec

/-- A session, and the diagnostics the server answers with when it is asked for those of document `u`. -/
structure Diagnosed (h : Host) (ms : List (Choice × Msg)) (u t : Bytes) (items : List LspDiag) : Prop where
  running : Running h ms
  open_ : Holds (ms.map (·.2)) u t
  up : ¬ ∃ y ∈ ms, IsShutdown y.2
  reply : ∃ ch id, (run h (ms ++ [(ch, ⟨false, id, .diagnostic (.given u)⟩)])).sent = (run h ms).sent ++ [.reply id (.diagnostics items)]

/-- The findings that do not make a program invalid: labels nothing refers to, code that is never
reached and branches to the next instruction. -/
inductive IsAdvice : DiagKind → Prop
  | unused {n : Bytes} : IsAdvice (.lint (.unusedLabel n))
  | unreachable : IsAdvice (.lint .unreachable)
  | useless : IsAdvice (.lint .bJustBefore)

/-- The item says what the analysis found, and where: the numbers 1 and 2 stand for errors and warnings. -/
structure Shows (it : LspDiag) (d : Diag) : Prop where
  kind : it.kind = d.kind
  startLine : it.range.start.line = d.l
  startChar : it.range.start.character = d.b
  stopLine : it.range.stop.line = d.l
  stopChar : it.range.stop.character = d.e
  severity : (it.severity = 2 ∧ IsAdvice d.kind) ∨ (it.severity = 1 ∧ ¬ IsAdvice d.kind)

end Teal.Lsp.Spec
