import Verif.Props.Cli

/-!
# What tealdbg does with its command line
-/

namespace Teal.Props
open Teal Teal.Cli Teal.CliSpec

/-- **C109** (exactly what tealdbg does.)  With `-debug` it does what the command line says; without, it behaves as if
asked for a trace in `E:/dbg.txt`: it serves if the connection can be made and the file created, panics if not, and
exits at once exactly if the command line is wrong or asks for help. -/
theorem C109_exact (w : World) (ws : List Bytes) :
    (∀ s, tealdbg w ws = .serves s ↔ Possible w s ∧
      ∃ l c t, Line [b!"net", b!"addr", b!"debug"] ws l ∧ Connection l c ∧ Trace l b!"E:/dbg.txt" t ∧ s = ⟨.debug, c, t⟩) ∧
    (tealdbg w ws = .panics ↔
      ∃ l c t, Line [b!"net", b!"addr", b!"debug"] ws l ∧ Connection l c ∧ Trace l b!"E:/dbg.txt" t ∧ ¬ Possible w ⟨.debug, c, t⟩) ∧
    ((tealdbg w ws = .exits 0 ∨ tealdbg w ws = .exits 2) ↔ ¬ ∃ l, Line [b!"net", b!"addr", b!"debug"] ws l) := by
  have hl : ∀ l, parseFlags [b!"net", b!"addr", b!"debug"] ws = .values l ↔ Line [b!"net", b!"addr", b!"debug"] ws l :=
    fun l => C109_flags (by decide) ws l
  have hb : ∀ s : Serving, begin w s ≠ .exits 0 ∧ begin w s ≠ .exits 2 := by
    intro s; unfold begin; split <;> exact ⟨(fun h => by cases h), (fun h => by cases h)⟩
  unfold tealdbg withFlags
  cases hp : parseFlags [b!"net", b!"addr", b!"debug"] ws with
  | values l =>
    have h1 := (hl l).1 hp
    have hu : ∀ l', Line [b!"net", b!"addr", b!"debug"] ws l' → l' = l := by
      intro l' h
      have := (hl l').2 h
      rw [hp] at this
      cases this
      rfl
    dsimp only
    refine ⟨fun s => ?_, ?_, ?_⟩
    · rw [begin_serves]
      constructor
      · rintro ⟨rfl, h⟩
        exact ⟨h, l, _, _, h1, connection_iff.2 rfl, trace_iff.2 rfl, rfl⟩
      · rintro ⟨h, l', c, t, h2, h3, h4, rfl⟩
        cases hu l' h2
        rw [connection_iff.1 h3, trace_iff.1 h4]
        exact ⟨rfl, h⟩
    · rw [begin_panics]
      constructor
      · intro h
        exact ⟨l, _, _, h1, connection_iff.2 rfl, trace_iff.2 rfl, h⟩
      · rintro ⟨l', c, t, h2, h3, h4, h⟩
        cases hu l' h2
        rw [connection_iff.1 h3, trace_iff.1 h4]
        exact h
    · exact ⟨fun h => absurd h fun h => h.elim (hb _).1 (hb _).2, fun h => absurd ⟨l, h1⟩ h⟩
  | help =>
    have hno : ∀ l, ¬ Line [b!"net", b!"addr", b!"debug"] ws l := fun l h => by have := (hl l).2 h; rw [hp] at this; cases this
    exact ⟨fun s => ⟨fun h => (by cases h), fun ⟨_, l, _, _, h, _⟩ => absurd h (hno l)⟩, ⟨fun h => (by cases h), fun ⟨l, _, _, h, _⟩ => absurd h (hno l)⟩,
      ⟨fun _ ⟨l, h⟩ => hno l h, fun _ => .inl rfl⟩⟩
  | wrong =>
    have hno : ∀ l, ¬ Line [b!"net", b!"addr", b!"debug"] ws l := fun l h => by have := (hl l).2 h; rw [hp] at this; cases this
    exact ⟨fun s => ⟨fun h => (by cases h), fun ⟨_, l, _, _, h, _⟩ => absurd h (hno l)⟩, ⟨fun h => (by cases h), fun ⟨l, _, _, h, _⟩ => absurd h (hno l)⟩,
      ⟨fun _ ⟨l, h⟩ => hno l h, fun _ => .inr rfl⟩⟩

/-- A command line with an address and an empty name for the trace. -/
example : tealdbg ⟨fun _ _ => true, fun _ => false⟩ [b!"-debug=", b!"-addr", b!"h:1"] = .serves ⟨.debug, some (b!"tcp", b!"h:1"), none⟩ ∧
    tealdbg ⟨fun _ _ => true, fun _ => false⟩ [b!"-addr", b!"h:1"] = .panics ∧
    tealdbg ⟨fun _ _ => true, fun _ => false⟩ [b!"-address", b!"h:1"] = .exits 2 := by decide +kernel

end Teal.Props
