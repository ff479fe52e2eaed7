import Verif.Lemmas.VmPar
import Verif.Props.VmStack

/-!
# C39, C40, C42, C45: branches, calls, breakpoints and paths
-/

namespace Teal.Props
open Teal.Spec

/-! ## Playing schedules, for the examples -/

/-- One step without an error (`none`), or selecting a branch. -/
def play (v : Vm) : Option Nat → Option Vm
  | some id => some (v.switch id)
  | none => match v.step with
    | some w => if w.error.isNone then some w else none
    | none => none

/-- A schedule. -/
def plays (v : Vm) : List (Option Nat) → Option Vm
  | [] => some v
  | a :: as => (play v a).bind fun w => plays w as

theorem plays_continues {v : Vm} : ∀ {as : List (Option Nat)} {u w : Vm}, Continues v u → plays u as = some w → Continues v w := by
  intro as
  induction as with
  | nil => intro u w hu h; cases h; exact hu
  | cons a as ih =>
    intro u w hu h
    obtain ⟨u', h1, h2⟩ := Option.bind_eq_some_iff.1 h
    refine ih ?_ h2
    cases a with
    | some id => cases h1; exact .switch id hu
    | none =>
      unfold play at h1
      dsimp only at h1
      split at h1
      · rename_i x hx
        split at h1
        · rename_i he
          cases h1
          exact .step hu hx (by simpa using he)
        · cases h1
      · cases h1

theorem continues_clean {l : List Op} {version : Nat} {v w : Vm} (hv : Clean l version v) (h : Continues v w) : Clean l version w := by
  induction h with
  | refl => exact hv
  | step _ h1 he ih => exact .step ih h1 he
  | run _ h1 he ih => exact .run ih h1 he
  | switch id _ ih => exact .switch id ih
  | breakpoints lns _ h1 ih => exact .breakpoints lns ih h1

/-! ## C39 -/

/-- How many values the instruction takes off the stack. -/
def taken : Op → Nat
  | .match_ ts => ts.length + 1
  | _ => 1

theorem forks_cost {o : Op} {ts : List Bytes} (h : Forks o ts) (version : Nat) (b : VmBranch) : o.costs version b = .ok [] := by
  cases h <;> rfl

/-- C39: at a conditional branch the machine goes on with the next line, and adds for each target
a branch that is at the target, with the same stack, budget and history. -/
theorem C39_fork {l : List Op} {version : Nat} {v w : Vm} (h : Session l version v) {k i : Nat} {b : VmBranch}
    {o : Op} {ts : List Bytes} (hs : Selected v k b i o) (hf : Forks o ts) (hbudget : 1 ≤ b.budget)
    (hstep : v.step = some w) (herr : w.error = none) :
    w.branches.length = v.branches.length + ts.length ∧
    ∃ b', w.branches[k]? = some b' ∧ b'.id = b.id ∧ b'.frames = b.frames ∧ b'.budget = b.budget - 1 ∧
      b'.trace = b.trace ++ [o] ∧ b'.stack = b.stack.drop (taken o) ∧ Reaches l (i + 1) b'.line ∧
      ∀ (d : Nat) (t : Bytes), ts[d]? = some t → ∃ x, w.branches[v.branches.length + d]? = some x ∧
        x.stack = b'.stack ∧ x.budget = b'.budget ∧ x.trace = b'.trace ∧
        ((∃ j, LastDefined l t j ∧ Reaches l j x.line) ∨ ((∀ j, ¬ DefinedAt l t j) ∧ x.line = none)) := by
  have hv := session_inv h
  obtain ⟨hl, hver⟩ := session_listing h
  obtain ⟨hacts, uniq⟩ := selected_acts hv hs
  have hcost : CostIs v.version b o 1 := .inl ⟨forks_cost hf _ _, rfl⟩
  have hspec := step_spec hv
  rw [hstep] at hspec
  generalize hr : some w = r at hspec
  cases hspec with
  | idle h0 => rw [hacts.sel] at h0; cases h0
  | @costErr k' b0 i' o' e ha he =>
    obtain ⟨rfl, rfl, rfl, rfl⟩ := uniq ha
    rw [forks_cost hf] at he; cases he
  | @poor k' b0 i' o' c ha hc hlt =>
    obtain ⟨rfl, rfl, rfl, rfl⟩ := uniq ha
    obtain rfl := hcost.unique hc
    omega
  | hang => cases hr
  | fail ha hc hle hx => cases hr; cases herr
  | @done k' b0 i' o' c m ha hc hle hx =>
    cases hr
    obtain ⟨rfl, rfl, rfl, rfl⟩ := uniq ha
    obtain rfl := hcost.unique hc
    have hfin := ha.finished hv hx
    have hok := exec_ok rfl hx
    have hlen := finished_length hv hfin
    have hforks : m.forks.length = ts.length := by
      have hs := executeOp_spec v o' (v.mach b0 o' 1)
      rw [hx] at hs
      generalize hr : (XRes.ok () m) = r at hs
      have hts := forks_iff.1 hf
      cases hs with
      | fork ts' m1 ht hc =>
        cases hr
        rw [hts] at ht; cases ht
        obtain ⟨s, sc, hl, rfl⟩ := hc
        simp [Vm.mach, forkBranches_length]
      | straight m1 _ _ h3 hc => rw [hts] at h3; cases h3
      | hang => cases hr
      | panic => cases hr
      | exit m1 h1 hc => cases h1 <;> cases hts
      | proto a r f fs ho => subst ho; cases hts
      | jump t ho => subst ho; cases hts
      | call t ho => subst ho; cases hts
      | ret f fs m1 ho => subst ho; cases hts
      | retNone ho => subst ho; cases hts
    have hk : k' < (v.finish k' m).branches.length := by
      have := (List.getElem?_eq_some_iff.1 hs.get).1
      omega
    have hb' := List.getElem?_eq_getElem hk
    refine ⟨by rw [hlen, hforks], _, hb', ?_⟩
    cases finished_origin hv hfin hb' with
    | other _ hne _ _ => exact absurd rfl hne
    | fork x h1 _ _ => have := (List.getElem?_eq_some_iff.1 hs.get).1; omega
    | self _ hret =>
      have e1 := hret.same
      have e2 := skipNops_same v.listing v.breakpoints m.br
      have hmline : m.br.line = some (i' + 1) := by
        have hg := exec_goes hs.line hx
        cases hg with
        | next _ hl _ _ _ => exact hl
        | halt hh _ _ => cases hh <;> cases hf
        | lost t ho _ _ _ _ => rcases ho with ho | ho <;> subst ho <;> cases hf
        | jump t j ho _ _ _ => subst ho; cases hf
        | call t j f ho _ _ _ _ => subst ho; cases hf
        | ret f fs ho _ _ _ => subst ho; cases hf
        | retNone ho _ _ _ => subst ho; cases hf
      have hstack : (v.finish k' m).branches[k'].stack = m.br.stack := by rw [e1]; dsimp only; rw [e2]
      have hbud : (v.finish k' m).branches[k'].budget = b0.budget - 1 := by rw [e1]; dsimp only; rw [e2]; exact hok.budget
      have htr : (v.finish k' m).branches[k'].trace = b0.trace ++ [o'] := by rw [e1]; dsimp only; rw [e2]; exact hok.trace
      have hfr : m.br.frames = b0.frames := by
        have hs := executeOp_spec v o' (v.mach b0 o' 1)
        rw [hx] at hs
        generalize hr : (XRes.ok () m) = r at hs
        have hts := forks_iff.1 hf
        cases hs with
        | fork ts' m1 ht hc =>
          cases hr
          obtain ⟨s, sc, hl, rfl⟩ := hc
          rfl
        | straight m1 _ _ h3 hc => rw [hts] at h3; cases h3
        | hang => cases hr
        | panic => cases hr
        | exit m1 h1 hc => cases h1 <;> cases hts
        | proto a r f fs ho => subst ho; cases hts
        | jump t ho => subst ho; cases hts
        | call t ho => subst ho; cases hts
        | ret f fs m1 ho => subst ho; cases hts
        | retNone ho => subst ho; cases hts
      refine ⟨?_, ?_, hbud, htr, ?_, ?_, ?_⟩
      · rw [e1]; dsimp only; rw [e2]; exact hok.id
      · rw [e1]; dsimp only; rw [e2]; exact hfr
      · have hargs : ∃ args, effect o' = some (args, []) ∧ args.length = taken o' ∧ OperandInRange o' := by
          cases hf
          · exact ⟨_, rfl, rfl, by simp [OperandInRange]⟩
          · exact ⟨_, rfl, rfl, by simp [OperandInRange]⟩
          · exact ⟨_, rfl, rfl, by simp [OperandInRange]⟩
          · exact ⟨_, rfl, by simp [taken], by simp [OperandInRange]⟩
        obtain ⟨args, g1, g2, g3⟩ := hargs
        obtain ⟨-, vs, g4, g5⟩ := C44_results_partial h hs g1 g3
          (fun hw => by cases hf <;> cases hw with | operands _ hw => cases hw)
          (fun n hn => by subst hn; cases hf) (fun n hn => by subst hn; cases hf) hstep hb' herr
          (by rw [htr]; intro e; have := congrArg List.length e; simp at this)
        have : vs = [] := List.length_eq_zero_iff.1 (by rw [g4.1]; rfl)
        rw [g5, this, g2]; rfl
      · rw [← hl]; exact reaches_skip hmline hret
      · intro d t hd
        have hdl := (List.getElem?_eq_some_iff.1 hd).1
        have hj : v.branches.length + d < (v.finish k' m).branches.length := by omega
        have hx' := List.getElem?_eq_getElem hj
        refine ⟨_, hx', ?_⟩
        cases finished_origin hv hfin hx' with
        | other b1 _ h1 _ => have := (List.getElem?_eq_some_iff.1 h1).1; omega
        | self h1 _ => have := (List.getElem?_eq_some_iff.1 hs.get).1; omega
        | fork y h1 h2 h3 =>
          rw [show v.branches.length + d - v.branches.length = d by omega] at h2
          obtain ⟨t', ts', q1, q2, q3⟩ := hok.forks d y h2
          rw [forks_iff.1 hf] at q1; cases q1
          rw [hd] at q2; cases q2
          have e3 := h3.same
          rw [q3] at e3 h3
          rw [skipNops_same] at e3
          refine ⟨by rw [e3, hstack], by rw [e3, hbud]; rfl, by rw [e3, htr]; rfl, ?_⟩
          cases hlab : findLabel v.listing t with
          | some j => left; refine ⟨j, hl ▸ findLabel_some hlab, ?_⟩; rw [← hl]; exact reaches_skip hlab h3
          | none => right; exact ⟨hl ▸ findLabel_none hlab, line_skip_none hlab h3⟩

/-- C39: what one branch does leaves the others alone. -/
theorem C39_independent {l : List Op} {version : Nat} {v w : Vm} (h : Session l version v) {k i : Nat} {b : VmBranch}
    {o : Op} (hs : Selected v k b i o) (hstep : v.step = some w) {j : Nat} {c : VmBranch} (hj : j ≠ k)
    (hc : v.branches[j]? = some c) : ∃ c', w.branches[j]? = some c' ∧ c'.id = c.id ∧ c'.stack = c.stack ∧
      c'.frames = c.frames ∧ c'.budget = c.budget ∧ c'.trace = c.trace ∧
      (c'.line = c.line ∨ (c'.line = none ∧ ∃ x, c.line = some x ∧ l.length ≤ x)) := by
  have hv := session_inv h
  obtain ⟨c', hc'⟩ := step_grows hv hstep hc
  have hr := step_other hv (selected_acts hv hs).1 hstep hj hc hc'
  obtain ⟨e1, e2, e3, e4, e5⟩ := stayed_same hr.same
  refine ⟨c', hc', e5, e3, e1, e4, e2, ?_⟩
  rcases hr with rfl | ⟨x, h1, h2, rfl⟩
  · exact .inl rfl
  · exact .inr ⟨rfl, x, h1, (session_listing h).1 ▸ h2⟩

/-- C39: as long as a branch executes no `load`, its state depends only on how many instructions it has
executed, not on what other branches did in between: after any two schedules. -/
theorem C39_schedule_partial {l : List Op} {version : Nat} {v w1 w2 : Vm} (h : Session l version v)
    (h1 : Continues v w1) (h2 : Continues v w2) {k : Nat} {b b1 b2 : VmBranch}
    (hb : v.branches[k]? = some b) (hb1 : w1.branches[k]? = some b1) (hb2 : w2.branches[k]? = some b2)
    (hlen : b1.trace.length = b2.trace.length) (hl : ∀ n, .u8 .load n ∉ b1.trace.drop b.trace.length) :
    b1.stack = b2.stack ∧ b1.frames = b2.frames ∧ b1.budget = b2.budget ∧ b1.trace = b2.trace ∧
      (b1.line = b2.line ∨ b1.line = none ∨ b2.line = none) := by
  obtain ⟨n1, c1, g1, g2, g3⟩ := continues_evolves h hb h1 b1 hb1
  obtain ⟨n2, c2, g4, g5, g6⟩ := continues_evolves h hb h2 b2 hb2
  obtain ⟨e1, e2, e3, e4, e5⟩ := stayed_same g2
  obtain ⟨f1, f2, f3, f4, f5⟩ := stayed_same g5
  have : n1 = n2 := by
    have t1 := evolvesN_trace g1
    have t2 := evolvesN_trace g4
    rw [e2, f2] at hlen
    omega
  subst this
  obtain rfl := evolvesN_unique (by rw [← e2]; exact hl) g1 g4
  refine ⟨e3.trans f3.symm, e1.trans f1.symm, e4.trans f4.symm, e2.trans f2.symm, ?_⟩
  rcases g3 with ⟨g3, -⟩ | g3
  · rcases g6 with ⟨g6, -⟩ | g6
    · exact .inl (g3.trans g6.symm)
    · exact .inr (.inr g6)
  · exact .inr (.inl g3)

/-- A program that forks: the state before, after, and two schedules that agree on branch 1. -/
def forking : List Op := [.int 1, .branch .bnz b!"x", .int 7, .plain .returnOp, .label b!"x", .int 2, .plain .returnOp]

example : ∃ v w k b i o, Session forking 8 v ∧ Selected v k b i o ∧ Forks o [b!"x"] ∧ 1 ≤ b.budget ∧
    v.step = some w ∧ w.error = none ∧ w.branches.length = 2 := by
  have h2 : ((after forking 8 1).bind fun v => (selection v).bind fun s => v.step.map fun w =>
      (s.1, s.2.2.1, s.2.2.2, decide (1 ≤ s.2.1.budget), w.error.isNone, w.branches.length)) =
      some (0, 1, .branch .bnz b!"x", true, true, 2) := by decide +kernel
  obtain ⟨v, hv, h2⟩ := Option.bind_eq_some_iff.1 h2
  obtain ⟨⟨k, b, i, o⟩, h3, h4⟩ := Option.bind_eq_some_iff.1 h2
  obtain ⟨w, h5, h6⟩ := Option.map_eq_some_iff.1 h4
  simp only [Prod.mk.injEq, decide_eq_true_eq, Option.isNone_iff_eq_none] at h6
  obtain ⟨rfl, rfl, rfl, h7, h8, h9⟩ := h6
  exact ⟨v, w, _, b, _, _, after_session hv, selection_selected h3, .bnz _, h7, h5, h8, h9⟩

example : ((plays (Vm.new forking 8) [none, none]).bind fun v => (plays v [some 1, none]).bind fun w1 =>
    (plays v [none, none, some 1, none]).bind fun w2 => w1.branches[1]?.bind fun b1 => w2.branches[1]?.map fun b2 =>
      (decide (b1.trace.length = b2.trace.length), decide (b1.stack = b2.stack), b1.trace.length)) = some (true, true, 3) := by
  decide +kernel

/-- C39 fails for programs with `load`: branches share the scratch space, so what another branch
stores changes what a branch loads. -/
theorem C39_false : ∃ (l : List Op) (version : Nat) (v w1 w2 : Vm) (k : Nat) (b b1 b2 : VmBranch),
    Session l version v ∧ Continues v w1 ∧ Continues v w2 ∧ v.branches[k]? = some b ∧ w1.branches[k]? = some b1 ∧
    w2.branches[k]? = some b2 ∧ b1.trace = b2.trace ∧ b1.stack ≠ b2.stack := by
  have h : ((plays (Vm.new [.int 1, .branch .bnz b!"x", .int 7, .u8 .store 0, .int 1, .plain .returnOp, .label b!"x", .u8 .load 0] 8)
      [none, none]).bind fun v => (plays v [some 1, none]).bind fun w1 =>
    (plays v [none, none, some 1, none]).bind fun w2 => v.branches[1]?.bind fun _ => w1.branches[1]?.bind fun b1 => w2.branches[1]?.map fun b2 =>
      (decide (b1.trace = b2.trace), decide (b1.stack = b2.stack))) = some (true, false) := by
    decide +kernel
  obtain ⟨v, h1, h⟩ := Option.bind_eq_some_iff.1 h
  obtain ⟨w1, h2, h⟩ := Option.bind_eq_some_iff.1 h
  obtain ⟨w2, h3, h⟩ := Option.bind_eq_some_iff.1 h
  obtain ⟨b, h4, h⟩ := Option.bind_eq_some_iff.1 h
  obtain ⟨b1, h5, h⟩ := Option.bind_eq_some_iff.1 h
  obtain ⟨b2, h6, h⟩ := Option.map_eq_some_iff.1 h
  simp only [Prod.mk.injEq, decide_eq_true_eq, decide_eq_false_iff_not] at h
  exact ⟨_, _, v, w1, w2, 1, b, b1, b2, clean_session (continues_clean .new (plays_continues (.refl _) h1)),
    plays_continues (.refl _) h2, plays_continues (.refl _) h3, h4, h5, h6, h.1, h.2⟩

/-! ## C40 -/

/-- C40: on a branch that was at a call, and since then executed the call, a body in which calls
and returns match, and `retsub`, the caller's frames are as before and the branch goes on with the
line after the call.  Missing: a branch created inside the subroutine (`C40_false`). -/
theorem C40_partial {l : List Op} {version : Nat} {v w : Vm} (h : Session l version v) {k i : Nat} {b b' : VmBranch}
    {t : Bytes} {mid : List Op} (hb : v.branches[k]? = some b) (hi : b.line = some i) (ho : At l i (.branch .callsub t))
    (hc : Continues v w) (hb' : w.branches[k]? = some b')
    (htr : b'.trace = b.trace ++ .branch .callsub t :: (mid ++ [.plain .retsub])) (hmid : Balanced mid) :
    b'.frames = b.frames ∧ (b'.line = none ∨ Reaches l (i + 1) b'.line) := by
  have key := continues_branch (P := Called l b i t) h (fun b0 h0 => ?_) (List.getElem?_eq_some_iff.1 hb).1 ?_ hc b' hb'
  · rcases key.cases with ⟨h1, -⟩ | ⟨rest, h1, -, h3⟩
    · rw [h1] at htr
      have := congrArg List.length htr
      simp at this
    · rw [h1] at htr
      have := List.append_cancel_left htr
      simp only [List.cons.injEq, true_and] at this
      exact h3 mid this (balanced_excess hmid 0)
  · rw [hb] at h0; cases h0
    exact ⟨.inl ⟨rfl, rfl, .inl hi⟩⟩
  · intro u u' hu hul hk hp hs he
    subst hul
    exact called_step hu ho hk hp hs he

/-- A nested call: at line 0 the branch calls, the body calls again, both return. -/
def nested : List Op := [.branch .callsub b!"f", .plain .err, .label b!"f", .branch .callsub b!"g", .plain .retsub,
  .label b!"g", .int 1, .plain .retsub]

example : (plays (Vm.new nested 8) [none, none, none, none, none]).bind (fun w => w.branches[0]?.map fun b =>
    (b.trace, b.frames, b.line)) = some (.branch .callsub b!"f" :: ([.branch .callsub b!"g", .int 1, .plain .retsub] ++ [.plain .retsub]),
      [], some 1) := by decide +kernel
example : Balanced [.branch .callsub b!"g", .int 1, .plain .retsub] :=
  .call _ [.int 1] [] (.op _ _ (by simp) (by simp) .nil) .nil

/-- A branch in a subroutine: `bnz` inside `f`. -/
def forkInside : List Op := [.branch .callsub b!"f", .int 1, .plain .returnOp, .label b!"f", .int 1, .branch .bnz b!"g",
  .plain .retsub, .label b!"g", .plain .retsub, .plain .err]

theorem forkInside_state : ∃ v b, Clean forkInside 8 v ∧ v.branches[1]? = some b ∧
    b.trace = [.branch .callsub b!"f", .int 1, .branch .bnz b!"g", .plain .retsub] ∧ b.line = some 9 := by
  have h : ((plays (Vm.new forkInside 8) [none, none, none, some 1, none]).bind fun v => v.branches[1]?.map fun b => (b.trace, b.line)) =
      some ([.branch .callsub b!"f", .int 1, .branch .bnz b!"g", .plain .retsub], some 9) := by decide +kernel
  obtain ⟨v, h1, h⟩ := Option.bind_eq_some_iff.1 h
  obtain ⟨b, h2, h⟩ := Option.map_eq_some_iff.1 h
  simp only [Prod.mk.injEq] at h
  exact ⟨v, b, continues_clean .new (plays_continues (.refl _) h1), h2, h.1, h.2⟩

/-- C40 fails on a branch created inside a subroutine: it has no frames, and goes on behind
`retsub`. -/
theorem C40_false : ∃ (l : List Op) (version : Nat) (v : Vm) (k : Nat) (b : VmBranch) (t : Bytes) (mid : List Op),
    Clean l version v ∧ v.branches[k]? = some b ∧ At l 0 (.branch .callsub t) ∧
    b.trace = .branch .callsub t :: (mid ++ [.plain .retsub]) ∧ Balanced mid ∧
    ¬ (b.line = none ∨ Reaches l 1 b.line) := by
  obtain ⟨v, b, h1, h2, h3, h4⟩ := forkInside_state
  refine ⟨forkInside, 8, v, 1, b, b!"f", [.int 1, .branch .bnz b!"g"], h1, h2, rfl, h3,
    .op _ _ (by simp) (by simp) (.op _ _ (by simp) (by simp) .nil), ?_⟩
  rw [h4]
  have noop : ¬ NoOp (.int 1) := by intro h; cases h
  rintro (h | ⟨x, hx, -, -, h⟩ | ⟨h, -⟩)
  · cases h
  · cases hx
    obtain ⟨o, g1, g2⟩ := h 1 (by omega) (by omega)
    cases g1; exact noop g2
  · exact noop (h 1 (.int 1) (by omega) rfl)

/-! ## C42 -/

/-- C42: when `Run` returns, all branches have exited, or an instruction has failed, or some
branch is at a line with a breakpoint; `Triggered` then holds such branches and their lines. -/
theorem C42_stops {l : List Op} {version : Nat} {v w : Vm} (h : Session l version v) (hr : v.Runs w) :
    (w.branch = none ∧ ∀ b ∈ w.branches, b.line = none) ∨ w.error ≠ none ∨
    (w.triggered ≠ [] ∧ ∀ e ∈ w.triggered, e.2 ∈ w.breakpoints ∧ ∃ b, w.branches[e.1]? = some b ∧ b.line = some e.2) := by
  induction hr with
  | stop hs =>
    rcases hs with hs | hs
    · exact .inl ⟨hs, session_idle h hs⟩
    · exact .inr (.inl hs)
  | hit _ _ h1 h2 =>
    have hv := session_inv h
    refine .inr (.inr ⟨h2, fun e he => ?_⟩)
    rw [(step_listing hv h1).2.2]
    exact step_triggered hv h1 he
  | next _ _ h1 _ _ ih => exact ih (.step h h1)

/-- `Run` goes through states and returns in one of them, or with a step that triggers. -/
theorem C42_visits {v w : Vm} (h : v.Runs w) :
    ∃ u, Visits v u ∧ (w = u ∨ (u.step = some w ∧ w.triggered ≠ [])) := by
  have key : ∀ {a b : Vm}, a.Runs b → ∀ {v : Vm}, Visits v a → ∃ u, Visits v u ∧ (b = u ∨ (u.step = some b ∧ b.triggered ≠ [])) := by
    intro a b hab
    induction hab with
    | stop _ => intro v hv; exact ⟨_, hv, .inl rfl⟩
    | hit _ _ h1 h2 => intro v hv; exact ⟨_, hv, .inr ⟨h1, h2⟩⟩
    | next h0 he h1 h2 _ ih => intro v hv; exact ih (.next hv h0 he h1 h2)
  exact key h .start

theorem step_error_line {v w : Vm} (hv : Inv v) (h : v.step = some w) (he : w.error ≠ none) {j : Nat} {b' : VmBranch}
    (hb : w.branches[j]? = some b') : ∃ b, v.branches[j]? = some b ∧ (b'.line = b.line ∨ b'.line = none) := by
  have ofStart : ∀ {x}, v.start.branches[j]? = some x → ∃ b, v.branches[j]? = some b ∧ (x.line = b.line ∨ x.line = none) := by
    intro x hx
    obtain ⟨b, h1, h2⟩ := start_origin hv hx
    exact ⟨b, h1, h2.line⟩
  have hs := step_spec hv
  rw [h] at hs
  generalize hr : some w = r at hs
  cases hs with
  | idle _ => cases hr; exact absurd (start_error hv) he
  | costErr _ _ => cases hr; exact ofStart hb
  | poor _ _ _ => cases hr; exact absurd (start_error hv) he
  | hang => cases hr
  | @fail k b i o c e m ha _ _ hx =>
    cases hr
    obtain ⟨s, sc, hl, hm⟩ := exec_panic hx
    subst hm
    simp only [Vm.writeBack, Vm.mach, List.append_nil] at hb
    rcases getElem?_set_cases hb with ⟨rfl, rfl⟩ | ⟨-, h⟩
    · exact ⟨b, ha.old, .inl rfl⟩
    · exact ofStart h
  | done ha _ _ hx => cases hr; exact absurd (ha.finished hv hx).error he

/-- C42: in every state `Run` goes through before it returns, a branch that is at a line with a
breakpoint was there when `Run` was called, and has executed nothing since.  So a branch that
comes to such a line makes `Run` return there. -/
theorem C42_no_pass_partial {l : List Op} {version : Nat} {v u : Vm} (h : Session l version v) (hu : Visits v u) {j x : Nat}
    {b' : VmBranch} (hb : u.branches[j]? = some b') (hx : b'.line = some x) (hbp : x ∈ v.breakpoints) :
    ∃ b, v.branches[j]? = some b ∧ b.line = some x ∧ (u.error = none → b.trace = b'.trace) := by
  have key : Session l version u ∧ u.breakpoints = v.breakpoints ∧ ∀ (j : Nat) (b' : VmBranch), u.branches[j]? = some b' →
      ∀ x, b'.line = some x → x ∈ v.breakpoints →
      ∃ b, v.branches[j]? = some b ∧ b.line = some x ∧ (u.error = none → b.trace = b'.trace) := by
    clear hb hx hbp
    induction hu with
    | start => exact ⟨h, rfl, fun j b' hb x hx _ => ⟨b', hb, hx, fun _ => rfl⟩⟩
    | @next u w _ h0 he hs ht ih =>
      obtain ⟨i1, i2, i3⟩ := ih
      have hi := session_inv i1
      refine ⟨.step i1 hs, (step_listing hi hs).2.2.trans i2, fun j b' hb x hx hbp => ?_⟩
      by_cases hwe : w.error = none
      · rcases step_reports hi hs hwe hb hx (i2 ▸ hbp) with h1 | ⟨b, h1, h2, h3⟩
        · rw [ht] at h1; cases h1
        · obtain ⟨b0, g1, g2, g3⟩ := i3 j b h1 x h2 hbp
          exact ⟨b0, g1, g2, fun _ => (g3 he).trans h3⟩
      · obtain ⟨b, h1, h2⟩ := step_error_line hi hs hwe hb
        have h3 : b.line = some x := by
          rcases h2 with h2 | h2
          · rw [← h2]; exact hx
          · rw [h2] at hx; cases hx
        obtain ⟨b0, g1, g2, -⟩ := i3 j b h1 x h3 hbp
        exact ⟨b0, g1, g2, fun hn => absurd hn hwe⟩
  exact key.2.2 j b' hb x hx hbp

/-- A loop with a breakpoint in it: `Run` comes back to the line and stops there again. -/
def looping : List Op := [.label b!"x", .int 1, .plain .pop, .branch .b b!"x"]

example : ∃ v w, Session looping 8 v ∧ v.breakpoints = [2] ∧ v.Runs w ∧ w.triggered = [(0, 2)] := by
  have h1 : (((Vm.new looping 8).setBreakpoints [2]).bind fun v => v.step.map fun w =>
      (v.breakpoints, v.branch, v.error, w.triggered)) = some ([2], some 0, none, [(0, 2)]) := by decide +kernel
  obtain ⟨v, h2, h1⟩ := Option.bind_eq_some_iff.1 h1
  obtain ⟨w, h3, h1⟩ := Option.map_eq_some_iff.1 h1
  simp only [Prod.mk.injEq] at h1
  obtain ⟨h4, h5, h6, h7⟩ := h1
  exact ⟨v, w, .breakpoints [2] .new h2, h4, .hit (by rw [h5]; simp) h6 h3 (by rw [h7]; simp), h7⟩

/-- Read strictly C42 fails at the line `Run` starts on: a breakpoint on the first instruction is
passed. -/
theorem C42_false : ∃ (l : List Op) (version : Nat) (v w : Vm) (k i : Nat) (b b' : VmBranch) (o : Op), Session l version v ∧
    Selected v k b i o ∧ i ∈ v.breakpoints ∧ b.trace = [] ∧ v.Runs w ∧ w.triggered = [] ∧ w.branches[k]? = some b' ∧ b'.trace = [o] := by
  have h1 : (((Vm.new [.int 1] 8).setBreakpoints [0]).bind fun v => (selection v).bind fun s => v.step.bind fun w => w.branches[s.1]?.map fun b' =>
      (decide (v.breakpoints = [0]) && v.error.isNone && decide (s.2.1.trace = []) && decide (s.2.2.1 = 0), s.2.2.2,
        decide (w.triggered = []) && decide (w.branch = none), b'.trace)) =
      some (true, .int 1, true, [.int 1]) := by decide +kernel
  obtain ⟨v, h2, h1⟩ := Option.bind_eq_some_iff.1 h1
  obtain ⟨⟨k, b, i, o⟩, h3, h1⟩ := Option.bind_eq_some_iff.1 h1
  obtain ⟨w, h4, h1⟩ := Option.bind_eq_some_iff.1 h1
  obtain ⟨b', h5, h1⟩ := Option.map_eq_some_iff.1 h1
  simp only [Prod.mk.injEq, Option.isNone_iff_eq_none, Bool.and_eq_true, decide_eq_true_eq] at h1
  obtain ⟨⟨⟨⟨g1, g2⟩, g3⟩, rfl⟩, rfl, ⟨g4, g5⟩, g6⟩ := h1
  have hsel := selection_selected h3
  refine ⟨_, _, v, w, k, 0, b, b', _, .breakpoints [0] .new h2, hsel, by rw [g1]; simp, g3,
    .next (by rw [hsel.branch]; simp) g2 h4 g4 (.stop (.inl g5)), g4, h5, g6⟩

/-! ## C45 -/

theorem excess_of_counts : ∀ (tr : List Op) (n : Nat), (∀ pre, pre <+: tr → pre.countP isReturn ≤ n + pre.countP isCall) →
    ∃ m, excess n tr = some m := by
  intro tr
  induction tr with
  | nil => intro n _; exact ⟨n, by simp [excess]⟩
  | cons o tr ih =>
    intro n h
    by_cases h1 : ∃ t, o = .branch .callsub t
    · obtain ⟨t, rfl⟩ := h1
      rw [excess_call]
      refine ih (n + 1) fun pre hp => ?_
      have := h (.branch .callsub t :: pre) (by simpa using hp)
      rw [List.countP_cons, List.countP_cons] at this
      simp [isCall, isReturn] at this
      omega
    · by_cases h2 : o = .plain .retsub
      · subst h2
        cases n with
        | zero =>
          have := h [.plain .retsub] (by simp)
          simp [isCall, isReturn] at this
        | succ n =>
          rw [excess_ret_succ]
          refine ih n fun pre hp => ?_
          have := h (.plain .retsub :: pre) (by simpa using hp)
          rw [List.countP_cons, List.countP_cons] at this
          simp [isCall, isReturn] at this
          omega
      · rw [excess_other n (fun t h => h1 ⟨t, h⟩) h2]
        refine ih n fun pre hp => ?_
        have := h (o :: pre) (by simpa using hp)
        have c1 : isCall o = false := by
          unfold isCall; split
          · rename_i t; exact absurd ⟨t, rfl⟩ h1
          · rfl
        have c2 : isReturn o = false := by
          unfold isReturn; split
          · exact absurd rfl h2
          · rfl
        simpa [c1, c2] using this

/-- C45: the history of a branch is a path through the program that ends at the line the branch is
at; or, if it has exited, at its last instruction.  For every branch that has executed no `retsub`,
and for the first branch as long as it does not return more often than it called.  Missing: other
branches with `retsub` (`C45_false`), and sessions that go on after an error. -/
theorem C45_path_partial {l : List Op} {version : Nat} {v : Vm} (h : Clean l version v) {k : Nat} {b : VmBranch}
    (hb : v.branches[k]? = some b) (hret : .plain .retsub ∉ b.trace ∨ (k = 0 ∧ NoExcessReturn b.trace)) :
    (∀ x, b.line = some x → ∃ rs, Walk l (0, []) b.trace (x, rs)) ∧
    (b.trace = [] ∨ ∃ tr o i rs, b.trace = tr ++ [o] ∧ Walk l (0, []) tr (i, rs) ∧ At l i o ∧ ¬ NoOp o) := by
  have hf : Followed k b.trace := by
    rcases hret with h1 | ⟨h1, h2⟩
    · exact .inl h1
    · obtain ⟨m, hm⟩ := excess_of_counts b.trace 0 (fun pre hp => by simpa using h2 pre hp)
      exact .inr ⟨h1, m, hm⟩
  obtain ⟨h1, h2⟩ := clean_onPath h hb hf
  refine ⟨fun x hx => ?_, h1⟩
  obtain ⟨rs, -, h3, -⟩ := h2 x hx
  exact ⟨rs, h3⟩

/-- The first branch after a nested call. -/
example : ∃ v b, Clean nested 8 v ∧ v.branches[0]? = some b ∧ b.line = some 1 ∧ b.trace.length = 5 ∧
    (decide (.plain .retsub ∈ b.trace)) = true ∧ NoExcessReturn b.trace := by
  have h : ((plays (Vm.new nested 8) [none, none, none, none, none]).bind fun w => w.branches[0]?.map fun b =>
    (b.trace, b.line)) = some ([.branch .callsub b!"f", .branch .callsub b!"g", .int 1, .plain .retsub, .plain .retsub], some 1) := by
    decide +kernel
  obtain ⟨v, h1, h⟩ := Option.bind_eq_some_iff.1 h
  obtain ⟨b, h2, h⟩ := Option.map_eq_some_iff.1 h
  simp only [Prod.mk.injEq] at h
  refine ⟨v, b, continues_clean .new (plays_continues (.refl _) h1), h2, h.2, by rw [h.1]; rfl, by rw [h.1]; decide +kernel, ?_⟩
  rw [h.1]
  intro pre hp
  have : ∀ n < 6, ((b.trace.take n).countP isReturn) ≤ ((b.trace.take n).countP isCall) := by rw [h.1]; decide +kernel
  have := this pre.length (by have := hp.length_le; simp at this; omega)
  rwa [h.1, ← List.prefix_iff_eq_take.1 hp] at this

/-- Control never gets behind the last `retsub` of `forkInside`. -/
theorem forkInside_walk {tr : List Op} {c : Nat × List Nat} (h : Walk forkInside (0, []) tr c) :
    (c.2 = [] ∧ c.1 < 3) ∨ (c.2 = [1] ∧ 3 ≤ c.1 ∧ c.1 < 9) := by
  have key : ∀ {a c}, Step forkInside a c → ((a.2 = [] ∧ a.1 < 3) ∨ (a.2 = [1] ∧ 3 ≤ a.1 ∧ a.1 < 9)) →
      ((c.2 = [] ∧ c.1 < 3) ∨ (c.2 = [1] ∧ 3 ≤ c.1 ∧ c.1 < 9)) := by
    have hdef : ∀ {n j}, DefinedAt forkInside n j → j = 3 ∨ j = 7 := by
      intro n j h
      have hj : j < 10 := (List.getElem?_eq_some_iff.1 h).1
      have : ∀ j < 10, (∃ n, forkInside[j]? = some (.label n)) → j = 3 ∨ j = 7 := by
        intro j hj
        rcases j with _ | _ | _ | _ | _ | _ | _ | _ | _ | _ | j <;> simp [forkInside]
      exact this j hj ⟨n, h⟩
    intro a c hs ha
    cases hs with
    | @next i o rs h1 h2 =>
      have : i ≠ 2 := by rintro rfl; cases h1; exact h2 (.halts _ .ret)
      have : i ≠ 8 := by rintro rfl; cases h1; exact h2 .retsub
      dsimp only at ha ⊢
      rcases ha with ⟨h3, h4⟩ | ⟨h3, h4, h5⟩
      · exact .inl ⟨h3, by omega⟩
      · exact .inr ⟨h3, by omega, by omega⟩
    | @jump i o n j rs h1 h2 h3 h4 =>
      dsimp only at ha ⊢
      rcases ha with ⟨g1, g2⟩ | ⟨g1, g2, g3⟩
      · rcases i with _ | _ | _ | i
        · cases h1; cases h2; exact absurd rfl h3
        · cases h1; cases h2
        · cases h1; cases h2
        · omega
      · exact .inr ⟨g1, by have := hdef h4; omega⟩
    | @call i n j rs h1 h2 =>
      dsimp only at ha ⊢
      have hi : i = 0 := by
        rcases i with _ | _ | _ | _ | _ | _ | _ | _ | _ | i
        · rfl
        all_goals first | (cases h1; done) | omega
      subst hi
      have hrs : rs = [] := by
        rcases ha with ⟨g1, -⟩ | ⟨-, g2, -⟩
        · exact g1
        · omega
      subst hrs
      exact .inr ⟨rfl, by have := hdef h2; omega⟩
    | @ret i r rs h1 =>
      dsimp only at ha ⊢
      rcases ha with ⟨g1, -⟩ | ⟨g1, -⟩
      · cases g1
      · cases g1; exact .inl ⟨rfl, by omega⟩
  induction h with
  | refl => exact .inl ⟨rfl, by decide⟩
  | skip _ _ _ h ih => exact key h ih
  | exec _ _ _ h ih => exact key h ih

/-- C45 fails on a branch created inside a subroutine: it returns into the code behind `retsub`,
where control cannot go. -/
theorem C45_false : ∃ (l : List Op) (version : Nat) (v : Vm) (k : Nat) (b : VmBranch) (x : Nat), Clean l version v ∧
    v.branches[k]? = some b ∧ b.line = some x ∧ ∀ tr rs, ¬ Walk l (0, []) tr (x, rs) := by
  obtain ⟨v, b, h1, h2, -, h4⟩ := forkInside_state
  refine ⟨_, _, v, 1, b, 9, h1, h2, h4, fun tr rs h => ?_⟩
  rcases forkInside_walk h with ⟨-, h⟩ | ⟨-, -, h⟩ <;> simp at h

/-- C45: a branch has exited, or is at an instruction, or is behind the last line of the program
(a branch that was created there, until `Step` finds out). -/
theorem C45_pointer_partial {l : List Op} {version : Nat} {v : Vm} (h : Session l version v) {b : VmBranch}
    (hb : b ∈ v.branches) : b.line = none ∨ ∃ x, b.line = some x ∧ ((∃ o, At l x o ∧ ¬ NoOp o) ∨ l.length ≤ x) := by
  have hs := (session_inv h).settled b hb
  rw [(session_listing h).1] at hs
  cases hl : b.line with
  | none => exact .inl rfl
  | some x =>
    rcases hs x hl with h1 | h1
    · exact .inr ⟨x, rfl, .inr h1⟩
    · exact .inr ⟨x, rfl, .inl (instrAt_iff.1 h1)⟩

/-- C45: the branch that is selected after a step is at an instruction or has exited. -/
theorem C45_selected {l : List Op} {version : Nat} {v w : Vm} (h : Session l version v) (hstep : v.step = some w) {k : Nat}
    (hk : w.branch = some k) : ∃ b, w.branches[k]? = some b ∧ (b.line = none ∨ ∃ x o, b.line = some x ∧ At l x o ∧ ¬ NoOp o) := by
  have hv := session_inv h
  have hl := (session_listing h).1
  have toSpec : ∀ {b : VmBranch} {i}, b.line = some i → InstrAt v.listing i →
      (b.line = none ∨ ∃ x o, b.line = some x ∧ At l x o ∧ ¬ NoOp o) := by
    intro b i h1 h2
    rw [hl] at h2
    obtain ⟨o, h3, h4⟩ := instrAt_iff.1 h2
    exact .inr ⟨i, o, h1, h3, h4⟩
  have hs := step_spec hv
  rw [hstep] at hs
  generalize hr : some w = r at hs
  cases hs with
  | idle h0 => cases hr; rw [hk] at h0; cases h0
  | costErr ha _ =>
    cases hr
    obtain ⟨-, b, i, -, h2, h3, h4⟩ := (start_skip hv).1.sel k hk
    exact ⟨b, h2, toSpec h3 h4⟩
  | @poor k' b i o c ha _ _ =>
    cases hr
    have e : some k' = some k := ha.sel.symm.trans hk
    cases e
    exact ⟨b.exit, List.getElem?_set_self (List.getElem?_eq_some_iff.1 ha.get).1, .inl rfl⟩
  | hang => cases hr
  | @fail k' b i o c e m ha _ _ hx =>
    cases hr
    have e : some k' = some k := ha.sel.symm.trans hk
    cases e
    obtain ⟨s, sc, -, hm⟩ := exec_panic hx
    subst hm
    have hlt := (List.getElem?_eq_some_iff.1 ha.get).1
    simp only [Vm.writeBack, Vm.mach, List.append_nil]
    have hin : InstrAt v.listing i := ⟨o, ha.op, ha.instr⟩
    refine ⟨{ b with stack := s, budget := b.budget - c, trace := b.trace ++ [o] }, List.getElem?_set_self hlt, ?_⟩
    exact toSpec (b := { b with stack := s, budget := b.budget - c, trace := b.trace ++ [o] }) ha.line hin
  | done ha _ _ hx =>
    cases hr
    obtain ⟨-, b, i, h1, h2, h3⟩ := (ha.finished hv hx).sel k hk
    exact ⟨b, h1, toSpec h2 h3⟩

example : ∃ v w k, Session forking 8 v ∧ v.step = some w ∧ w.branch = some k := by
  have h : ((after forking 8 1).bind fun v => v.step.bind fun w => w.branch) = some 0 := by decide +kernel
  obtain ⟨v, h1, h⟩ := Option.bind_eq_some_iff.1 h
  obtain ⟨w, h2, h⟩ := Option.bind_eq_some_iff.1 h
  exact ⟨v, w, 0, after_session h1, h2, h⟩

/-- Read strictly C45 fails for a branch that is created at a label behind which there is nothing:
it is on a line the program does not have. -/
theorem C45_pointer_false : ∃ (l : List Op) (version : Nat) (v : Vm) (b : VmBranch) (x : Nat), Clean l version v ∧ b ∈ v.branches ∧
    b.line = some x ∧ ∀ o, ¬ At l x o := by
  have h : ((plays (Vm.new [.int 1, .branch .bnz b!"x", .plain .err, .label b!"x"] 8) [none, none]).bind fun v =>
      v.branches[1]?.map fun b => b.line) = some (some 4) := by decide +kernel
  obtain ⟨v, h1, h⟩ := Option.bind_eq_some_iff.1 h
  obtain ⟨b, h2, h⟩ := Option.map_eq_some_iff.1 h
  refine ⟨_, _, v, b, 4, continues_clean .new (plays_continues (.refl _) h1), List.mem_of_getElem? h2, h, ?_⟩
  intro o h
  cases h

end Teal.Props
