import Verif.Props.Labels
import Verif.Props.WireOut

/-!
# C112: what the server announces
-/

namespace Teal.Props

open Teal Teal.Spec Teal.Lsp Teal.Lsp.Spec Teal.JsonSpec Teal.WireSpec

/-- **C112** `initialize` is answered with what the server can do.  Coloured tokens are announced unless they have been turned
off, inlay hints unless both kinds have been turned off; options that are not given stay as they were. -/
theorem C112 (h : Host) (ms : List (Choice × Msg)) (hr : Running h ms) (hup : ¬ ∃ y ∈ ms, IsShutdown y.2) (ch : Choice) (id : Bytes) (o : Option Options)
    (t : Wire.Texts) : ∃ tokens hints a ms', tokens = setting (·.semanticTokens) (ms.map (·.2) ++ [⟨false, id, .initialize (.given o)⟩]) ∧
      hints = (setting (·.inlayNamed) (ms.map (·.2) ++ [⟨false, id, .initialize (.given o)⟩]) ||
        setting (·.inlayDecoded) (ms.map (·.2) ++ [⟨false, id, .initialize (.given o)⟩])) ∧
      (run h (ms ++ [(ch, ⟨false, id, .initialize (.given o)⟩)])).sent = (run h ms).sent ++ [.reply id a] ∧
      Wire.resultOut t a = .obj ms' ∧ Has ms' b!"capabilities" (SeesCapabilities tokens hints) := by
  have hsh : (run h ms).st.shutdown = false := by
    rw [← Bool.not_eq_true, shutdown_iff h ms hr]; exact hup
  obtain ⟨c, hstep⟩ : ∃ c, run h (ms ++ [(ch, ⟨false, id, .initialize (.given o)⟩)]) =
      { (run h ms) with
        st := { (run h ms).st with config := c }
        sent := (run h ms).sent ++ [.reply id (.capabilities c.semanticTokens (c.inlayNamed || c.inlayDecoded))] } := by
    rw [run_running hr]
    simp only [handle, handleRequest, hsh, Bool.false_eq_true, if_false]
    exact ⟨_, rfl⟩
  have hr' : Running h (ms ++ [(ch, ⟨false, id, .initialize (.given o)⟩)]) := by
    unfold Running
    rw [hstep]
    exact hr
  have hup' : ¬ ∃ y ∈ ms ++ [(ch, ⟨false, id, .initialize (.given o)⟩)], IsShutdown y.2 := by
    rintro ⟨y, hy, hs⟩
    rcases List.mem_append.1 hy with hy | hy
    · exact hup ⟨y, hy, hs⟩
    · rw [List.mem_singleton.1 hy] at hs
      cases hs.2
  have key := fun g f hg hf => config_of hr' hup' g f hg hf
  rw [hstep, List.map_append] at key
  refine ⟨_, _, _, _, rfl, rfl, congrArg Session.sent hstep, rfl, ?_⟩
  have e1 := key (·.semanticTokens) (·.semanticTokens) rfl (fun _ _ => rfl)
  have e2 := key (·.inlayNamed) (·.inlayNamed) rfl (fun _ _ => rfl)
  have e3 := key (·.inlayDecoded) (·.inlayDecoded) rfl (fun _ _ => rfl)
  dsimp only at e1 e2 e3
  rw [e1, e2, e3]
  exact has_find (by decide) rfl (sees_capabilities _ _)

/-- Coloured tokens are turned off, then one of the hints, then the other one. -/
example : (run sampleHost ([{ semanticTokens := some false }, { inlayNamed := some false }, { inlayDecoded := some false, semanticTokens := some true }].map
      fun o => (sampleChoice, ⟨false, b!"1", .initialize (.given (some o))⟩))).sent =
    [.reply b!"1" (.capabilities false true), .reply b!"1" (.capabilities false true), .reply b!"1" (.capabilities true false)] := by
  decide +kernel

end Teal.Props
