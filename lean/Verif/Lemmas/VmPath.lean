import Verif.Lemmas.VmFlow
import Verif.Lemmas.VmEffect

/-!
# Histories, calls and breakpoints
-/

namespace Teal
open Teal.Spec

/-! ## Executions without errors -/

theorem runs_error {v w : Vm} (h : v.Runs w) (he : v.error ≠ none) : w = v := by
  cases h with
  | stop _ => rfl
  | hit _ h2 _ _ => exact absurd h2 he
  | next _ h2 _ _ _ => exact absurd h2 he

theorem runs_ok_induct {P : Vm → Prop} (hs : ∀ v w, P v → v.step = some w → w.error = none → P w) {v w : Vm}
    (h : v.Runs w) (hv : P v) (he : w.error = none) : P w := by
  induction h with
  | stop _ => exact hv
  | hit _ _ h1 _ => exact hs _ _ hv h1 he
  | @next v w u _ _ h1 _ h2 ih =>
    by_cases hw : w.error = none
    · exact ih (hs _ _ hv h1 hw) he
    · rw [runs_error h2 hw] at he; exact absurd he hw

theorem clean_session {l : List Op} {version : Nat} {v : Vm} (h : Clean l version v) : Session l version v := by
  induction h with
  | new => exact .new
  | step _ h1 _ ih => exact .step ih h1
  | run _ h1 _ ih => exact .run ih h1
  | switch id _ ih => exact .switch id ih
  | breakpoints lns _ h1 ih => exact .breakpoints lns ih h1

theorem continues_session {l : List Op} {version : Nat} {v w : Vm} (hv : Session l version v) (h : Continues v w) :
    Session l version w := by
  induction h with
  | refl => exact hv
  | step _ h1 _ ih => exact .step ih h1
  | run _ h1 _ ih => exact .run ih h1
  | switch id _ ih => exact .switch id ih
  | breakpoints lns _ h1 ih => exact .breakpoints lns ih h1

/-- A property of positions and branches kept by steps without errors. -/
theorem clean_branches {l : List Op} {version : Nat} {P : Nat → VmBranch → Prop}
    (hn : ∀ (j : Nat) (b : VmBranch), (Vm.new l version).branches[j]? = some b → P j b)
    (hs : ∀ v w, Inv v → v.listing = l → (∀ (j : Nat) (b : VmBranch), v.branches[j]? = some b → P j b) → v.step = some w →
      w.error = none → ∀ (j : Nat) (b : VmBranch), w.branches[j]? = some b → P j b) {v : Vm} (h : Clean l version v) :
    ∀ (j : Nat) (b : VmBranch), v.branches[j]? = some b → P j b := by
  have step' : ∀ v w, (Inv v ∧ v.listing = l ∧ ∀ (j : Nat) (b : VmBranch), v.branches[j]? = some b → P j b) → v.step = some w →
      w.error = none → (Inv w ∧ w.listing = l ∧ ∀ (j : Nat) (b : VmBranch), w.branches[j]? = some b → P j b) :=
    fun v w hv h1 he => ⟨inv_step hv.1 h1, (step_listing hv.1 h1).1.trans hv.2.1, hs v w hv.1 hv.2.1 hv.2.2 h1 he⟩
  have key : Inv v ∧ v.listing = l ∧ ∀ (j : Nat) (b : VmBranch), v.branches[j]? = some b → P j b := by
    induction h with
    | new => exact ⟨inv_new l version, (session_listing .new).1, hn⟩
    | step _ h1 he ih => exact step' _ _ ih h1 he
    | run _ h1 he ih => exact runs_ok_induct step' h1 ih he
    | switch id h0 ih =>
      refine ⟨inv_switch ih.1 id, (session_listing (.switch id (clean_session h0))).1, ?_⟩
      rw [switch_branches]; exact ih.2.2
    | breakpoints lns h0 h1 ih =>
      refine ⟨inv_setBreakpoints ih.1 h1, (session_listing (.breakpoints lns (clean_session h0) h1)).1, ?_⟩
      rw [setBreakpoints_branches h1]; exact ih.2.2
  exact key.2.2

/-- A property of one branch kept by steps without errors. -/
theorem continues_branch {l : List Op} {version : Nat} {k : Nat} {P : VmBranch → Prop} {v w : Vm}
    (hv : Session l version v) (h0 : ∀ b, v.branches[k]? = some b → P b) (hk : k < v.branches.length)
    (hs : ∀ v w, Inv v → v.listing = l → k < v.branches.length → (∀ b, v.branches[k]? = some b → P b) → v.step = some w →
      w.error = none → ∀ b, w.branches[k]? = some b → P b) (h : Continues v w) :
    ∀ b, w.branches[k]? = some b → P b := by
  have step' : ∀ v w, (Inv v ∧ v.listing = l ∧ k < v.branches.length ∧ ∀ b, v.branches[k]? = some b → P b) → v.step = some w →
      w.error = none → (Inv w ∧ w.listing = l ∧ k < w.branches.length ∧ ∀ b, w.branches[k]? = some b → P b) :=
    fun v w hv h1 he => ⟨inv_step hv.1 h1, (step_listing hv.1 h1).1.trans hv.2.1,
      Nat.lt_of_lt_of_le hv.2.2.1 (step_length hv.1 h1), hs v w hv.1 hv.2.1 hv.2.2.1 hv.2.2.2 h1 he⟩
  have key : Inv w ∧ w.listing = l ∧ k < w.branches.length ∧ ∀ b, w.branches[k]? = some b → P b := by
    induction h with
    | refl => exact ⟨session_inv hv, (session_listing hv).1, hk, h0⟩
    | step _ h1 he ih => exact step' _ _ ih h1 he
    | run _ h1 he ih => exact runs_ok_induct step' h1 ih he
    | @switch w id hc ih =>
      refine ⟨inv_switch ih.1 id, (session_listing (.switch id (continues_session hv hc))).1, ?_⟩
      rw [switch_branches]; exact ih.2.2
    | breakpoints lns hc h1 ih =>
      refine ⟨inv_setBreakpoints ih.1 h1, (session_listing (.breakpoints lns (continues_session hv hc) h1)).1, ?_⟩
      rw [setBreakpoints_branches h1]; exact ih.2.2
  exact key.2.2.2

/-! ## The other branches -/

/-- A step leaves the branches other than the acting one alone. -/
theorem step_other {v w : Vm} (hv : Inv v) {k i : Nat} {b : VmBranch} {o : Op} (ha : Acts v k b i o)
    (h : v.step = some w) {j : Nat} {c c' : VmBranch} (hj : j ≠ k) (hc : v.branches[j]? = some c)
    (hc' : w.branches[j]? = some c') : Retired v.listing c c' := by
  have uniq : ∀ {k' i' b' o'}, Acts v k' b' i' o' → k' = k := by
    intro k' i' b' o' ha'
    have e := ha'.sel
    rw [ha.sel] at e; cases e; rfl
  have ofStart : ∀ {x}, v.start.branches[j]? = some x → Retired v.listing c x := by
    intro x hx
    obtain ⟨b, h1, h2⟩ := start_origin hv hx
    rw [hc] at h1; cases h1; exact h2
  have hs := step_spec hv
  rw [h] at hs
  generalize hr : some w = r at hs
  cases hs with
  | idle _ => cases hr; exact ofStart hc'
  | costErr _ _ => cases hr; exact ofStart hc'
  | @poor k' b' i' o' c0 ha' _ _ =>
    cases hr
    obtain rfl := uniq ha'
    rcases getElem?_set_cases hc' with ⟨rfl, -⟩ | ⟨-, h⟩
    · exact absurd rfl hj
    · exact ofStart h
  | hang => cases hr
  | @fail k' b' i' o' c0 e m ha' hc0 hle hx =>
    cases hr
    obtain rfl := uniq ha'
    obtain ⟨s, sc, hl, hm⟩ := exec_panic hx
    subst hm
    simp only [Vm.writeBack, Vm.mach, List.append_nil] at hc'
    rcases getElem?_set_cases hc' with ⟨rfl, -⟩ | ⟨-, h⟩
    · exact absurd rfl hj
    · exact ofStart h
  | @done k' b' i' o' c0 m ha' hc0 hle hx =>
    cases hr
    obtain rfl := uniq ha'
    have hf := ha'.finished hv hx
    cases finished_origin hv hf hc' with
    | other b0 hne h1 h2 => rw [hc] at h1; cases h1; exact h2
    | self h1 _ => exact absurd h1 hj
    | fork y h1 _ _ =>
      have := (List.getElem?_eq_some_iff.1 hc).1
      omega

/-! ## Walks -/

theorem walk_nops {l : List Op} {a : Nat × List Nat} {tr : List Op} {rs : List Nat} {i : Nat} (h : Walk l a tr (i, rs)) :
    ∀ j, i ≤ j → (∀ y, i ≤ y → y < j → ∃ o, At l y o ∧ NoOp o) → Walk l a tr (j, rs) := by
  intro j
  induction j with
  | zero => intro hj _; obtain rfl : i = 0 := by omega
            exact h
  | succ j ih =>
    intro hj hn
    by_cases he : i = j + 1
    · subst he; exact h
    · obtain ⟨o, h1, h2⟩ := hn j (by omega) (by omega)
      exact .skip (ih (by omega) fun y h3 h4 => hn y h3 (by omega)) h1 h2 (.next h1 (noFall_nop h2))

/-- Going on from a line to where the branch stops. -/
theorem walk_reaches {l : List Op} {a : Nat × List Nat} {tr : List Op} {rs : List Nat} {i x : Nat} {bps : List Nat} {b b' : VmBranch}
    (h : Walk l a tr (i, rs)) (hb : b.line = some i) (hr : Retired l (b.skipNops l bps).2.1 b')
    (hx : b'.line = some x) : Walk l a tr (x, rs) := by
  obtain ⟨j, hij, he, hnb, -⟩ := (skipNops_some l bps b i hb).land
  have hline : (b.skipNops l bps).2.1.line = some j := by rw [he]
  have : x = j := by
    rcases hr.line with h1 | h1
    · rw [h1, hline] at hx; cases hx; rfl
    · rw [h1] at hx; cases hx
  subst this
  refine walk_nops h x hij fun y h1 h2 => ?_
  obtain ⟨o, h3, h4⟩ := hnb y h1 h2
  exact ⟨o, h3, (isNop_iff o).1 h4⟩

theorem skipNops_frames (l : List Op) (bps : List Nat) (b : VmBranch) : (b.skipNops l bps).2.1.frames = b.frames := by
  rw [skipNops_same]

theorem Retired.frames {l : List Op} {b b' : VmBranch} (h : Retired l b b') : b'.frames = b.frames := by
  rw [h.same]

theorem Retired.trace {l : List Op} {b b' : VmBranch} (h : Retired l b b') : b'.trace = b.trace := by
  rw [h.same]

theorem skipNops_trace (l : List Op) (bps : List Nat) (b : VmBranch) : (b.skipNops l bps).2.1.trace = b.trace := by
  rw [skipNops_same]

theorem acted_trace {v : Vm} {o : Op} {b b' : VmBranch} {c : Int} {m : Mach}
    (hx : v.executeOp o (v.mach b o c) = .ok () m)
    (hr : Retired v.listing (m.br.skipNops v.listing v.breakpoints).2.1 b') : b'.trace = b.trace ++ [o] := by
  rw [hr.trace, skipNops_trace, (exec_ok rfl hx).trace]; rfl

theorem acted_frames {v : Vm} {m : Mach} {b' : VmBranch}
    (hr : Retired v.listing (m.br.skipNops v.listing v.breakpoints).2.1 b') : b'.frames = m.br.frames := by
  rw [hr.frames, skipNops_frames]

theorem backs_congr {b b' : VmBranch} (h : b'.frames = b.frames) : b'.backs = b.backs := by
  unfold VmBranch.backs; rw [h]

/-! ## Counting calls and returns -/

/-- How many calls are open behind `tr`, starting with `n`; `none` if there are more returns than
calls. -/
def excess : Nat → List Op → Option Nat
  | n, [] => some n
  | n, .branch .callsub _ :: tr => excess (n + 1) tr
  | 0, .plain .retsub :: _ => none
  | n + 1, .plain .retsub :: tr => excess n tr
  | n, _ :: tr => excess n tr

theorem excess_call (n : Nat) (t : Bytes) (tr : List Op) : excess n (.branch .callsub t :: tr) = excess (n + 1) tr := by
  simp [excess]

theorem excess_ret_zero (tr : List Op) : excess 0 (.plain .retsub :: tr) = none := by simp [excess]

theorem excess_ret_succ (n : Nat) (tr : List Op) : excess (n + 1) (.plain .retsub :: tr) = excess n tr := by
  simp [excess]

theorem excess_other (n : Nat) {o : Op} (h1 : ∀ t, o ≠ .branch .callsub t) (h2 : o ≠ .plain .retsub) (tr : List Op) :
    excess n (o :: tr) = excess n tr := by
  rw [excess]
  · exact fun t h => h1 t h
  · exact fun _ h => h2 h
  · exact fun _ _ h => h2 h

theorem excess_append (tr tr' : List Op) : ∀ n, excess n (tr ++ tr') = (excess n tr).bind fun m => excess m tr' := by
  induction tr with
  | nil => intro n; simp [excess]
  | cons o tr ih =>
    intro n
    rw [List.cons_append]
    by_cases h1 : ∃ t, o = .branch .callsub t
    · obtain ⟨t, rfl⟩ := h1
      rw [excess_call, excess_call, ih]
    · by_cases h2 : o = .plain .retsub
      · subst h2
        cases n with
        | zero => rw [excess_ret_zero, excess_ret_zero]; rfl
        | succ n => rw [excess_ret_succ, excess_ret_succ, ih]
      · rw [excess_other n (fun t h => h1 ⟨t, h⟩) h2, excess_other n (fun t h => h1 ⟨t, h⟩) h2, ih]

theorem balanced_excess {tr : List Op} (h : Balanced tr) : ∀ n, excess n tr = some n := by
  induction h with
  | nil => intro n; simp [excess]
  | op o s h1 h2 _ ih => intro n; rw [excess_other n h1 h2, ih]
  | call t a s _ _ iha ihs =>
    intro n
    rw [excess_call, excess_append, iha]
    simp only [Option.bind_some]
    rw [excess_ret_succ, ihs]

end Teal
