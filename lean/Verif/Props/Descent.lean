import Verif.Lemmas.Descent

/-!
# C36, C38, C45 at their boundary
-/

namespace Teal.Props
open Teal Teal.Spec

/-! ## C36, C38: `dupn 255` is the only instruction that hangs -/

theorem dupn_empty {v : Vm} {n : Nat} {m : Mach} (h : m.br.stack = []) : v.executeOp (.u8 .dupn n) m ≠ .hang := by
  show (X.pop .any >>= fun v => _) m ≠ _
  rw [X.bind_apply]
  have : X.pop .any m = .panic (.emptyStack .any) m := by unfold X.pop; rw [h]
  rw [this]
  simp

theorem dupn_hang {v : Vm} {n : Nat} {m : Mach} (h : m.br.stack ≠ []) (hn : 255 ≤ n) : v.executeOp (.u8 .dupn n) m = .hang := by
  show (X.pop .any >>= fun v => _) m = _
  rw [X.bind_apply]
  cases hs : m.br.stack with
  | nil => exact (h hs).elim
  | cons x s =>
    have : X.pop .any m = .ok x { m with br := { m.br with stack := s } } := by unfold X.pop; rw [hs]; simp
    rw [this]
    dsimp only
    rw [if_pos hn]
    rfl

theorem step_none {v : Vm} (hv : Inv v) (h : v.step = none) : ∃ k b, AtDupn255 v k b := by
  have hs := step_spec hv
  rw [h] at hs
  generalize hr : (none : Option Vm) = r at hs
  cases hs with
  | @hang k b i o c ha hc hle hx =>
    obtain ⟨n, rfl, hn⟩ := exec_hang hx
    refine ⟨k, b, ha.old, ⟨i, n, ha.line, ha.op, hn⟩, fun he => dupn_empty (m := v.mach b _ c) he hx, ?_⟩
    rcases hc with ⟨-, rfl⟩ | hc
    · exact hle
    · cases hc
  | _ => cases hr

/-- C38: a step that does not return has come to `dupn 255`, with a value to duplicate and budget left. -/
theorem C38_only {l : List Op} {version : Nat} {v : Vm} (h : Session l version v) (hs : v.step = none) : ∃ k b, AtDupn255 v k b :=
  step_none (session_inv h) hs

/-- C38: and there no step returns. -/
theorem C38_hangs {l : List Op} {version : Nat} {v : Vm} (h : Session l version v) {k : Nat} {b : VmBranch} (hk : v.branch = some k)
    (hd : AtDupn255 v k b) : v.step = none := by
  obtain ⟨hb, ⟨i, n, hi, hat, hn⟩, hne, hbud⟩ := hd
  have hv := session_inv h
  cases hstep : v.step with
  | none => rfl
  | some w =>
    obtain ⟨b', hb'⟩ := step_grows hv hstep hb
    have hx : ∀ c, v.executeOp (.u8 .dupn n) (v.mach b (.u8 .dupn n) c) = .hang := fun c => dupn_hang (m := v.mach b _ c) hne hn
    rcases selected_step hv ⟨hk, hb, hi, hat⟩ hstep hb' with ⟨-, e, h1⟩ | ⟨-, -, c, h1, h2⟩ | ⟨c, e, m, -, -, h1⟩ | ⟨c, m, -, -, h1, -⟩
    · cases h1
    · rcases h1 with ⟨-, rfl⟩ | h1
      · omega
      · cases h1
    · rw [hx] at h1; cases h1
    · rw [hx] at h1; cases h1

/-- C36: `Run` returns exactly if the steps it takes do: and these do until the machine comes to
`dupn 255`, with a value to duplicate and budget left. -/
theorem C36_exact {l : List Op} {version : Nat} {v : Vm} (h : Session l version v) :
    ((∃ w, v.Runs w) ↔ ¬ ∃ u, Visits v u ∧ u.branch ≠ none ∧ u.error = none ∧ u.step = none) ∧
    (∀ u, Visits v u → u.step = none → ∃ k b, AtDupn255 u k b) := by
  have hses : ∀ {u}, Visits v u → Session l version u := by
    intro u hu
    induction hu with
    | start => exact h
    | next _ _ _ hs _ ih => exact .step ih hs
  refine ⟨⟨?_, ?_⟩, fun u hu hs => C38_only (hses hu) hs⟩
  · rintro ⟨w, hw⟩ ⟨u, hu, h1, h2, h3⟩
    have key : ∃ w, u.Runs w := by
      clear h1 h2 h3
      induction hu with
      | start => exact ⟨w, hw⟩
      | next _ g1 g2 g3 g4 ih =>
        obtain ⟨w', hw'⟩ := ih
        cases hw' with
        | stop h => rcases h with h | h <;> contradiction
        | hit k1 k2 k3 k4 => rw [g3] at k3; cases k3; contradiction
        | next k1 k2 k3 k4 k5 => rw [g3] at k3; cases k3; exact ⟨_, k5⟩
    obtain ⟨w', hw'⟩ := key
    cases hw' with
    | stop h => rcases h with h | h <;> contradiction
    | hit k1 k2 k3 k4 => rw [h3] at k3; cases k3
    | next k1 k2 k3 k4 k5 => rw [h3] at k3; cases k3
  · intro hno
    obtain ⟨K, hK⟩ := exists_labels_bound l
    have main : ∀ (μ : Nat) (u : Vm), Visits v u → weights K u.branches = μ → ∃ w, u.Runs w := by
      intro μ
      induction μ using Nat.strongRecOn with
      | ind μ ih =>
        intro u hu hμ
        have hv := session_inv (hses hu)
        by_cases h1 : u.branch = none
        · exact ⟨u, .stop (.inl h1)⟩
        by_cases h2 : u.error = none
        · cases hw : u.step with
          | none => exact (hno ⟨u, hu, h1, h2, hw⟩).elim
          | some w =>
            by_cases h3 : w.triggered = []
            · rcases step_weight hv (by rw [(session_listing (hses hu)).1]; exact hK) (session_budget (hses hu)) hw with h4 | h4 | h4
              · exact ⟨w, .next h1 h2 hw h3 (.stop (.inr h4))⟩
              · exact ⟨w, .next h1 h2 hw h3 (.stop (.inl h4))⟩
              · obtain ⟨x, hx⟩ := ih (weights K w.branches) (by omega) w (.next hu h1 h2 hw h3) rfl
                exact ⟨x, .next h1 h2 hw h3 hx⟩
            · exact ⟨w, .hit h1 h2 hw h3⟩
        · exact ⟨u, .stop (.inr h2)⟩
    exact main _ v .start rfl

/-- `int 1; dupn 255`, behind a fork: the branches are two, one of them is stuck; and a program with
`dupn 255` whose `Run` returns, because it is not reached. -/
example : ∃ v k b, Session [.int 1, .branch .bnz b!"x", .int 7, .plain .returnOp, .label b!"x", .int 5, .u8 .dupn 255] 8 v ∧ v.branch = some k ∧
    AtDupn255 v k b ∧ v.step = none := by
  have h : ((plays (Vm.new [.int 1, .branch .bnz b!"x", .int 7, .plain .returnOp, .label b!"x", .int 5, .u8 .dupn 255] 8)
      [none, none, none, none, some 1, none]).bind fun v => v.branches[1]?.map fun b =>
      ((v.branch, b.line), v.listing[6]?, b.stack.length, b.budget)) = some ((some 1, some 6), some (.u8 .dupn 255), 1, 697) := by
    decide +kernel
  obtain ⟨v, h1, h⟩ := Option.bind_eq_some_iff.1 h
  obtain ⟨b, h2, h⟩ := Option.map_eq_some_iff.1 h
  simp only [Prod.mk.injEq] at h
  obtain ⟨⟨g1, g2⟩, g3, g4, g5⟩ := h
  have hs : Session _ 8 v := clean_session (continues_clean .new (plays_continues (.refl _) h1))
  have hd : AtDupn255 v 1 b := ⟨h2, ⟨6, 255, g2, g3, by decide⟩, (fun h => by rw [h] at g4; cases g4), by rw [g5]; decide⟩
  exact ⟨v, 1, b, hs, g1, hd, C38_hangs hs g1 hd⟩
example : ∃ w, (Vm.new [.int 1, .plain .returnOp, .u8 .dupn 255] 8).Runs w := by
  have h : ((Vm.new [.int 1, .plain .returnOp, .u8 .dupn 255] 8).step.bind fun v => v.step.map fun w =>
    ((v.triggered, w.triggered), v.branch, v.error.isNone, w.branch)) = some (([], []), some 0, true, none) := by decide +kernel
  obtain ⟨v, h1, h⟩ := Option.bind_eq_some_iff.1 h
  obtain ⟨w, h2, h⟩ := Option.map_eq_some_iff.1 h
  simp only [Prod.mk.injEq, Option.isNone_iff_eq_none] at h
  obtain ⟨⟨g1, g2⟩, g3, g4, g5⟩ := h
  exact ⟨w, .next (by decide +kernel) (by decide +kernel) h1 g1 (.next (by rw [g3]; simp) g4 h2 g2 (.stop (.inl g5)))⟩

/-! ## C45 -/

/-- C45: the history of a branch is a path through the program that ends at the line the branch is at;
or, if it has exited, at its last instruction.  For every branch that, like those it comes from, has
returned from no more subroutines than it has itself called.  Missing: branches that return from a
subroutine they were created in (`C45_false`), and sessions that go on after an error. -/
theorem C45_descent_partial {l : List Op} {version : Nat} {v : Vm} {k : Nat} {own : List Op} (h : Descends l version v k own) :
    ∃ b, v.branches[k]? = some b ∧ own <:+ b.trace ∧
      (∀ x, b.line = some x → ∃ rs, Walk l (0, []) b.trace (x, rs)) ∧
      (b.trace = [] ∨ ∃ tr o i rs, b.trace = tr ++ [o] ∧ Walk l (0, []) tr (i, rs) ∧ At l i o ∧ ¬ NoOp o) := by
  obtain ⟨b, hb, h1, h2, -, h4⟩ := descends_path h
  refine ⟨b, hb, h4, fun x hx => ?_, h1⟩
  obtain ⟨rs, -, h3, -⟩ := h2 x hx
  exact ⟨rs, h3⟩

theorem noExcess_of {tr : List Op} (h : ∀ n : Fin (tr.length + 1), (tr.take n).countP isReturn ≤ (tr.take n).countP isCall) : NoExcessReturn tr := by
  intro pre hp
  have := h ⟨pre.length, Nat.lt_succ_of_le hp.length_le⟩
  rw [List.prefix_iff_eq_take.1 hp]
  exact this

theorem plays_append {as bs : List (Option Nat)} : ∀ {v w : Vm}, plays v (as ++ bs) = some w → ∃ u, plays v as = some u ∧ plays u bs = some w := by
  induction as with
  | nil => intro v w h; exact ⟨v, rfl, h⟩
  | cons a as ih =>
    intro v w h
    obtain ⟨u, h1, h2⟩ := Option.bind_eq_some_iff.1 h
    obtain ⟨x, h3, h4⟩ := ih h2
    exact ⟨x, Option.bind_eq_some_iff.2 ⟨u, h1, h3⟩, h4⟩

theorem plays_one {v w : Vm} (h : plays v [none] = some w) : v.step = some w ∧ w.error = none := by
  obtain ⟨u, h1, h2⟩ := Option.bind_eq_some_iff.1 h
  cases h2
  unfold play at h1
  dsimp only at h1
  split at h1
  · split at h1
    · cases h1
      rename_i h3 h4
      exact ⟨h3, Option.isNone_iff_eq_none.1 h4⟩
    · cases h1
  · cases h1

/-- One step of the branch `k` from the state after a schedule. -/
theorem descend_one {l : List Op} {version k : Nat} {v : Vm} {own tr : List Op} {o : Op} {as : List (Option Nat)} (h : Descends l version v k own)
    (hv : plays (Vm.new l version) as = some v) (hb : ((plays (Vm.new l version) as).bind fun v => v.branches[k]?.map (·.trace)) = some tr)
    (hw : ((plays (Vm.new l version) (as ++ [none])).bind fun w => w.branches[k]?.map (·.trace)) = some (tr ++ [o])) (hn : NoExcessReturn (own ++ [o])) :
    ∃ w, plays (Vm.new l version) (as ++ [none]) = some w ∧ Descends l version w k (own ++ [o]) := by
  obtain ⟨w, e, hw⟩ := Option.bind_eq_some_iff.1 hw
  rw [hv, Option.bind_some] at hb
  obtain ⟨b, b1, b2⟩ := Option.map_eq_some_iff.1 hb
  obtain ⟨b', b3, b4⟩ := Option.map_eq_some_iff.1 hw
  obtain ⟨u, e1, e2⟩ := plays_append e
  rw [hv] at e1; cases e1
  obtain ⟨s1, s2⟩ := plays_one e2
  exact ⟨w, e, .step h s1 s2 ⟨b, b', b1, b3, by rw [b4, b2]⟩ hn⟩

/-- A branch that is created outside of subroutines and then calls one and returns from it. -/
def forkThenCall : List Op := [.int 1, .branch .bnz b!"x", .plain .err, .label b!"x", .branch .callsub b!"f", .plain .returnOp,
  .label b!"f", .int 7, .plain .retsub]

example : ∃ v b, Descends forkThenCall 8 v 1 [.branch .callsub b!"f", .int 7, .plain .retsub] ∧ v.branches[1]? = some b ∧ b.line = some 5 ∧
    b.trace = [.int 1, .branch .bnz b!"x", .branch .callsub b!"f", .int 7, .plain .retsub] := by
  obtain ⟨v1, e1, d1⟩ := descend_one (l := forkThenCall) (version := 8) (k := 0) (as := []) (tr := []) (o := .int 1) .new rfl
    (by decide +kernel) (by decide +kernel) (noExcess_of (by decide +kernel))
  have h : ((plays (Vm.new forkThenCall 8) [none]).bind fun v => v.step.bind fun w => v.branches[0]?.bind fun b => w.branches[0]?.map fun b' =>
      ((w.error.isNone, v.branches.length, w.branches.length), b.trace, b'.trace)) =
      some ((true, 1, 2), [.int 1], [.int 1, .branch .bnz b!"x"]) := by decide +kernel
  rw [show plays (Vm.new forkThenCall 8) [none] = some v1 from e1, Option.bind_some] at h
  obtain ⟨v2, s2, h⟩ := Option.bind_eq_some_iff.1 h
  obtain ⟨b, hb, h⟩ := Option.bind_eq_some_iff.1 h
  obtain ⟨b', hb', h⟩ := Option.map_eq_some_iff.1 h
  simp only [Prod.mk.injEq, Option.isNone_iff_eq_none] at h
  obtain ⟨⟨g1, g2, g3⟩, g4, g5⟩ := h
  have d2 : Descends forkThenCall 8 (v2.switch 1) 1 [] :=
    .switch 1 (.fork d1 s2 g1 (o := .branch .bnz b!"x") ⟨b, b', hb, hb', by rw [g4, g5]; rfl⟩ (by omega) (by omega))
  have e2 : plays (Vm.new forkThenCall 8) [none, none, some 1] = some (v2.switch 1) := by
    have e1 : play (Vm.new forkThenCall 8) none = some v1 := by
      obtain ⟨u, h1, h2⟩ := Option.bind_eq_some_iff.1 e1
      cases h2; exact h1
    have e2 : play v1 none = some v2 := by unfold play; dsimp only; rw [s2]; dsimp only; rw [g1]; rfl
    show (play _ none).bind (fun w => (play w none).bind fun u => plays u [some 1]) = _
    rw [e1, Option.bind_some, e2]; rfl
  obtain ⟨v3, e3, d3⟩ := descend_one (tr := [.int 1, .branch .bnz b!"x"]) (o := .branch .callsub b!"f") d2 e2
    (by decide +kernel) (by decide +kernel) (noExcess_of (by decide +kernel))
  obtain ⟨v4, e4, d4⟩ := descend_one (tr := [.int 1, .branch .bnz b!"x", .branch .callsub b!"f"]) (o := .int 7) d3 e3
    (by decide +kernel) (by decide +kernel) (noExcess_of (by decide +kernel))
  obtain ⟨v5, e5, d5⟩ := descend_one (tr := [.int 1, .branch .bnz b!"x", .branch .callsub b!"f", .int 7]) (o := .plain .retsub) d4 e4
    (by decide +kernel) (by decide +kernel) (noExcess_of (by decide +kernel))
  have h : ((plays (Vm.new forkThenCall 8) ([none, none, some 1] ++ [none] ++ [none] ++ [none])).bind fun v => v.branches[1]?.map fun b => (b.line, b.trace)) =
    some (some 5, [.int 1, .branch .bnz b!"x", .branch .callsub b!"f", .int 7, .plain .retsub]) := by decide +kernel
  rw [e5, Option.bind_some] at h
  obtain ⟨b5, h1, h⟩ := Option.map_eq_some_iff.1 h
  simp only [Prod.mk.injEq] at h
  exact ⟨v5, b5, d5, h1, h.1, h.2⟩

end Teal.Props
