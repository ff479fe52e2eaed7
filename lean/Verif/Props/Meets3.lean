import Verif.Props.Cli
import Verif.Props.Corrupt
import Verif.Props.Docs
import Verif.Props.Exact
import Verif.Props.Tools
import Verif.Props.Quote
import Verif.Props.Sarif
import Verif.Props.Display
import Verif.Props.Dead
import Verif.Props.Process2

/-!
# Cases that meet the hypotheses of theorems, continued

For theorems without such a case beside them: the theorem is applied to it.
-/

namespace Teal.Props

open Teal Spec Teal.Lsp Teal.Lsp.Spec Teal.Frame Teal.Frame.Spec Teal.Cli Teal.CliSpec Teal.DocsSpec

/-- C109: a session that ends with its input, after a message without an answer. -/
example (t : Wire.Texts) : served ⟨fun _ _ => true, fun _ => false⟩ sampleHost some (fun _ => sampleChoice) t [] (input [bareFrame b!"initialized" .initialized]) =
    some (0, (Lsp.run sampleHost (messages (fun _ => sampleChoice) [bareFrame b!"initialized" .initialized])).sent.flatMap
      fun x => Frame.writeFrame (Wire.sent t x)) := by
  refine C109_end (tr := none) (asks_iff.2 (.inr ⟨[], by decide +kernel⟩)) ⟨fun _ _ h => (by cases h), fun _ h => (by cases h)⟩ sampleHost
    (fun _ _ _ _ _ => rfl) _ t ?_ ⟨by decide +kernel, by decide +kernel⟩
  intro g hg
  simp only [List.mem_cons, List.not_mem_nil, or_false] at hg
  subst hg
  exact bareFrame_proper (plain_chars (by decide)) (by decide) fun _ => .initialized

/-- C130, C122: of a constant that cannot be read. -/
example : ∃ items t, Diagnosed sampleHost (openSession b!"byte b64 YW!j") b!"u" b!"byte b64 YW!j" items ∧
    ∃ e, Explains id e ∧ Locates e ∧ ∃ os : List Operand, Describes b!"byte" os ∧
      EditorSays t items 0 (words (tokens b!"byte b64 YW!j") 0) (Blames e sampleHost.addrOk 1 b!"byte" false 1 os [b!"b64", b!"YW!j"]) := by
  have hd : Diagnosed sampleHost (openSession b!"byte b64 YW!j") b!"u" b!"byte b64 YW!j" [⟨Lsp.onLine 0 9 13, 1, .parse .badBytes⟩] :=
    open_diagnosed _ _ (by decide +kernel)
  have hw : words (tokens b!"byte b64 YW!j") 0 = ⟨b!"byte", 0, 0, 4, .value⟩ :: [⟨b!"b64", 0, 5, 8, .value⟩, ⟨b!"YW!j", 0, 9, 13, .value⟩] := by
    decide +kernel
  obtain ⟨e, h1, h2, os, h3, -, h5⟩ := C130_partial (q := id) (addr := id) hd
    (t := { sampleTexts with operand := fun it => operandText (goErrors id id) sampleHost.addrOk b!"byte b64 YW!j" it.range.start.line.toNat })
    (fun _ => rfl) 0 _ _ 1 hw .first (by decide +kernel) (fun h => absurd h (by decide)) (fun _ y hy => by
      intro p hp y' z h
      have : 41 ∈ y := by rw [h]; simp
      exact absurd this ((by decide : ∀ y ∈ [b!"b64", b!"YW!j"], (41 : UInt8) ∉ y) y hy))
  rw [hw]
  exact ⟨_, _, hd, e, h1, h2, os, h3 (by decide), h5⟩

/-- C129: what is said over an opcode. -/
example : ∃ a text, Answered sampleHost (openSession b!"err") b!"u" b!"err" (.hover ⟨0, 1⟩) a ∧ Help b!"err" text ∧ text ≠ [] ∧
    HoverSays text (Wire.resultOut (Docs.texts fun _ => []) a) := by
  have h : Answered sampleHost (openSession b!"err") b!"u" b!"err" (.hover ⟨0, 1⟩) (.hover (.op b!"err")) := open_answered _ _ _ (by decide +kernel)
  obtain ⟨text, h1, h2, h3⟩ := (C129_hover _ _ _ _ 0 1 _ h fun _ => []).1 ⟨b!"err", 0, 0, 3, .value⟩ [] (.inl (by decide +kernel)) (by decide) (by decide)
    (by decide +kernel) (by decide +kernel)
  exact ⟨_, text, h, h1, h2, h3⟩

/-- C89: the line behind `err` in a text. -/
example (r : ProcessResult) (hr : process sampleEnv b!"err\npop" = some r) : Reported r .unreachable 1 := by
  have hp : Program sampleEnv.addrOk 1 (wordLines (tokens b!"err\npop")) [.plain .err, .plain .pop] := by
    have h : wordLines (tokens b!"err\npop") = [[b!"err"], [b!"pop"]] := by decide +kernel
    rw [h]
    exact .instr 1 _ _ _ (by decide) (.plain _ _ (by decide)) _ _ (.instr 1 _ _ _ (by decide) (.plain _ _ (by decide)) _ _ (.nil 1))
  refine (C89_unreachable_exact _ _ _ _ hp hr 1).2 ⟨⟨.plain .pop, rfl, fun h => by cases h⟩, 0, .plain .err, by decide, rfl, .err, ?_⟩
  intro j n h1 h2
  omega

/-- C53: the files of a directory are listed once. -/
example (r : Sarif.Run) (h : Sarif.scan sampleEnv sampleFiles = .report r) : r.artifacts.Nodup := by
  refine C53_uri h (fun p q h => by simpa [sampleFiles] using h) ?_
  intro ps h
  cases h with
  | take h => cases h
  | skip _ h => cases h with
    | skip h => exact absurd (by decide : b!".teal" <:+ b!"d/a.teal") (by rcases h with h | h; cases h; exact h)
    | take _ _ h => cases h with
      | take _ h => exact absurd h (by decide)
      | skip _ h => cases h with
        | take h => cases h
        | skip _ h => cases h with
          | skip h => exact absurd (by decide : b!".teal" <:+ b!"d/e.teal/c d.teal") (by rcases h with h | h; cases h; exact h)
          | take _ _ h => cases h; decide

section

open Teal.Dap

/-- C51: two values of the scratch space of a debugged program. -/
example : ∃ mc b ss s vs, sampleDbg.2.vm = some mc ∧ b ∈ mc.tvm.branches ∧ Responds sampleEnv sampleDbg.2 (.scopes (some b.id)) (.scopes ss) ∧ s ∈ ss ∧
    Responds sampleEnv sampleDbg.2 (.variables (some ⟨s.ref, some (0 : Nat), some (2 : Nat)⟩)) (.variables vs) := by
  obtain ⟨mc, b, hm, hb, -, -, -, -, ht⟩ := sample_state
  have hmem : b ∈ mc.tvm.branches := by rw [hb]; simp
  obtain ⟨ss, h1, h2⟩ := C95_answer sample_sends hm hmem
  obtain ⟨s, h3, h4, -⟩ := h2 .scratch
  have hsc : (0 : Nat) + 2 ≤ mc.tvm.scratch.length := by
    have h : (match sampleDbg.2.vm with
      | some mc => decide (0 + 2 ≤ mc.tvm.scratch.length)
      | none => false) = true := by decide +kernel
    rw [hm] at h
    exact of_decide_eq_true h
  obtain ⟨vs, h5, -⟩ := C51_window sample_sends hm hmem (.inl rfl) h1 h3 h4 0 2 hsc (by omega)
  exact ⟨mc, b, ss, s, vs, hm, hmem, h1, h3, h5⟩

/-- C57: a request for the threads is answered once. -/
example (r : Outcome) (h : Handles sampleEnv sampleDbg.2 ⟨7, .threads⟩ r) (hn : r.next ≠ none) :
    ∃ o os, r.outs = o :: os ∧ o.response = some (7, true) ∧ ∀ o' ∈ os, o'.response = none :=
  C57_partial h trivial (fun _ h => by cases h) hn

end

end Teal.Props
