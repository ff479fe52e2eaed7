import Verif.Lemmas.LintRun

/-!
# C99: the linter and the debugger agree
-/

namespace Teal.Props
open Teal Teal.Spec

theorem reaches_back {l : List Op} {i : Nat} {o : Op} {line : Option Nat} (h : Reaches l (i + 1) line) (ha : At l i o) (hn : NoOp o) :
    Reaches l i line := by
  rcases h with ⟨x, rfl, h1, h2, h3⟩ | ⟨h1, h2⟩
  · refine .inl ⟨x, rfl, by omega, h2, fun y hy hy' => ?_⟩
    rcases Nat.eq_or_lt_of_le hy with rfl | hlt
    · exact ⟨o, ha, hn⟩
    · exact h3 y hlt hy'
  · refine .inr ⟨fun y p hy hp => ?_, h2⟩
    rcases Nat.eq_or_lt_of_le hy with rfl | hlt
    · have : some o = some p := ha.symm.trans hp
      cases this; exact hn
    · exact h1 y p hlt hp

/-- C99: in no state of any session is a branch at an instruction the linter reports as
unreachable. -/
theorem C99_unreachable {l : List Op} {version : Nat} {v : Vm} (h : Session l version v) (o : MapOrder) {i : Nat}
    (hi : ⟨i, .unreachable⟩ ∈ lintErrs o l) {b : VmBranch} (hb : b ∈ v.branches) : b.line ≠ some i := by
  intro hl
  rw [lintErrs_rule] at hi
  obtain ⟨-, op, ho, hn, hd⟩ := (mem_lintUnreachable l _).1 hi
  rcases (session_live h b hb).1 i hl (List.getElem?_eq_some_iff.1 ho).1 with h1 | ⟨n, h1, -⟩
  · simp only at h1 hd
    rw [h1] at hd; cases hd
  · simp only at h1 ho
    rw [h1] at ho
    obtain rfl : Op.label n = op := by simpa using ho
    cases hn

/-- A branch created inside a subroutine goes on behind `retsub`, but not behind the `err` there. -/
example : ∃ v b, Session [.branch .callsub b!"f", .plain .err, .label b!"f", .int 1, .branch .bnz b!"g", .plain .err, .label b!"g", .plain .retsub,
      .int 2, .plain .err, .int 3] 8 v ∧ b ∈ v.branches ∧ b.line = some 9 ∧
    ⟨10, .unreachable⟩ ∈ lintErrs sampleOrder [.branch .callsub b!"f", .plain .err, .label b!"f", .int 1, .branch .bnz b!"g", .plain .err,
      .label b!"g", .plain .retsub, .int 2, .plain .err, .int 3] := by
  have h : ((after [.branch .callsub b!"f", .plain .err, .label b!"f", .int 1, .branch .bnz b!"g", .plain .err, .label b!"g", .plain .retsub,
      .int 2, .plain .err, .int 3] 8 6).bind fun v => v.branches[1]?.map (·.line)) = some (some 9) := by decide +kernel
  obtain ⟨v, h1, h⟩ := Option.bind_eq_some_iff.1 h
  obtain ⟨b, h2, h⟩ := Option.map_eq_some_iff.1 h
  exact ⟨v, b, after_session h1, List.mem_of_getElem? h2, h, by decide +kernel⟩

/-- C99: a branch that is inside a loop the linter reports as infinite stays inside as long as it is
there, whatever is done in the session, and executes nothing that ends the program. -/
theorem C99_loop {l : List Op} {version : Nat} {v : Vm} (h : Session l version v) (o : MapOrder) {i : Nat}
    (hi : ⟨i, .infiniteLoop⟩ ∈ lintErrs o l) : ∃ n j, At l i (.branch .b n) ∧ DefinedAt l n j ∧ j < i ∧
      ∀ (w : Vm) (k x : Nat) (b b' : VmBranch), Continues v w → v.branches[k]? = some b → b.line = some x → j ≤ x → x ≤ i →
        w.branches[k]? = some b' →
        (∀ y, b'.line = some y → j ≤ y ∧ y ≤ i) ∧ ∃ os, b'.trace = b.trace ++ os ∧ ∀ o ∈ os, ¬ Halts o := by
  obtain ⟨n, j, h1, h2, h3, -, h5⟩ := (C31_rule o l i).1 hi
  exact ⟨n, j, h1, h3, h2, fun w k x b b' hc hb hx hjx hxi hb' =>
    continues_loop h hc (List.getElem?_eq_some_iff.1 h1).1 h5 hb hx hjx hxi hb'⟩

/-- A session in a loop, in which the branch has gone round. -/
example : ∃ v w b b', Session [.label b!"a", .int 1, .plain .pop, .branch .b b!"a"] 8 v ∧ Continues v w ∧ v.branches[0]? = some b ∧
    b.line = some 1 ∧ w.branches[0]? = some b' ∧ b'.trace.length = 4 ∧
    ⟨3, .infiniteLoop⟩ ∈ lintErrs sampleOrder [.label b!"a", .int 1, .plain .pop, .branch .b b!"a"] := by
  have h : ((Vm.new [.label b!"a", .int 1, .plain .pop, .branch .b b!"a"] 8).branches[0]?.map (·.line),
      (plays (Vm.new [.label b!"a", .int 1, .plain .pop, .branch .b b!"a"] 8) [none, none, none, none]).bind fun w => w.branches[0]?.map
        (·.trace.length)) = (some (some 1), some 4) := by decide +kernel
  obtain ⟨ha, h⟩ := Prod.mk.inj h
  obtain ⟨b, hb, hl⟩ := Option.map_eq_some_iff.1 ha
  obtain ⟨w, h1, h⟩ := Option.bind_eq_some_iff.1 h
  obtain ⟨b', h2, h⟩ := Option.map_eq_some_iff.1 h
  exact ⟨_, w, b, b', .new, plays_continues (.refl _) h1, hb, hl, h2, h, by decide +kernel⟩

/-- C99: executing a branch the linter reports as just before its target leads to where leaving it out
would. -/
theorem C99_redundant {l : List Op} {version : Nat} {v w : Vm} (h : Session l version v) (o : MapOrder) {i k : Nat} {b b' : VmBranch} {n : Bytes}
    (hi : ⟨i, .bJustBefore⟩ ∈ lintErrs o l) (hu : ∀ j j', DefinedAt l n j → DefinedAt l n j' → j = j')
    (hs : Selected v k b i (.branch .b n)) (hbud : 1 ≤ b.budget) (hstep : v.step = some w) (hb' : w.branches[k]? = some b') :
    w.error = none ∧ Reaches l (i + 1) b'.line ∧ b'.stack = b.stack ∧ b'.frames = b.frames ∧ w.scratch = v.scratch ∧
    w.branches.length = v.branches.length := by
  have hv := session_inv h
  obtain ⟨hl, -⟩ := session_listing h
  obtain ⟨hacts, uniq⟩ := selected_acts hv hs
  have hop : At l i (.branch .b n) := by rw [← hl]; exact hs.op
  obtain ⟨n', j, h1, h2, h3, h4⟩ := (C30_rule o l i).1 hi
  have e : some _ = some _ := h1.symm.trans hop
  cases e
  have hcost : CostIs v.version b (.branch .b n) 1 := .inl ⟨rfl, rfl⟩
  have hspec := step_spec hv
  rw [hstep] at hspec
  generalize hr : some w = r at hspec
  cases hspec with
  | idle h0 => rw [hacts.sel] at h0; cases h0
  | @costErr k' b0 i' o' e ha he =>
    obtain ⟨rfl, rfl, rfl, rfl⟩ := uniq ha
    cases he
  | @poor k' b0 i' o' c ha hc hlt =>
    obtain ⟨rfl, rfl, rfl, rfl⟩ := uniq ha
    obtain rfl := hcost.unique hc
    omega
  | hang => cases hr
  | @fail k' b0 i' o' c e m ha hc hle hx =>
    obtain ⟨rfl, rfl, rfl, rfl⟩ := uniq ha
    cases hx
  | @done k' b0 i' o' c m ha hc hle hx =>
    cases hr
    obtain ⟨rfl, rfl, rfl, rfl⟩ := uniq ha
    have hfin := ha.finished hv hx
    have hlen := finished_length hv hfin
    have hk : k' < v.branches.length := (List.getElem?_eq_some_iff.1 hs.get).1
    have hm : m = { v.mach b0 (.branch .b n) c with br := { (v.mach b0 (.branch .b n) c).br with line := findLabel v.listing n } } := by
      cases hx; rfl
    have hfind : findLabel v.listing n = some j := by
      rw [hl]
      cases hfl : findLabel l n with
      | none => exact (findLabel_none hfl j h3).elim
      | some j' => rw [hu j' j (findLabel_some hfl).1 h3]
    cases finished_origin hv hfin hb' with
    | other _ hne _ _ => exact (hne rfl).elim
    | fork x hle _ _ => omega
    | self _ hret =>
      have hst : b'.stack = m.br.stack := by rw [hret.same]; dsimp only; rw [skipNops_same]
      have hfr : b'.frames = m.br.frames := by rw [hret.same]; dsimp only; rw [skipNops_same]
      have hre := reaches_skip (i := j) (by rw [hm]; exact hfind) hret
      rw [hl] at hre
      refine ⟨hfin.error, ?_, by rw [hst, hm]; rfl, by rw [hfr, hm]; rfl, by rw [hfin.scratch, hm]; rfl, by rw [hlen, hm]; rfl⟩
      have back : ∀ d, d ≤ j - (i' + 1) → Reaches l (j - d) b'.line := by
        intro d
        induction d with
        | zero => intro _; exact hre
        | succ d ih =>
          intro hd
          have h5 := ih (by omega)
          obtain ⟨p, hp, hnop, -⟩ := h4 (j - (d + 1)) (by omega) (by omega)
          rw [show j - d = j - (d + 1) + 1 by omega] at h5
          exact reaches_back h5 hp hnop
      have := back (j - (i' + 1)) (Nat.le_refl _)
      rwa [show j - (j - (i' + 1)) = i' + 1 by omega] at this

/-- A redundant branch, about to be executed. -/
example : ∃ v w b b', Session [.int 1, .branch .b b!"a", .label b!"a", .plain .pop] 8 v ∧ Selected v 0 b 1 (.branch .b b!"a") ∧ 1 ≤ b.budget ∧
    v.step = some w ∧ w.branches[0]? = some b' ∧
    ⟨1, .bJustBefore⟩ ∈ lintErrs sampleOrder [.int 1, .branch .b b!"a", .label b!"a", .plain .pop] := by
  have h : ((after [.int 1, .branch .b b!"a", .label b!"a", .plain .pop] 8 1).bind fun v => v.step.bind fun w =>
      v.branches[0]?.bind fun b => w.branches[0]?.map fun _ => ((v.branch, v.listing), b.line, b.budget)) =
      some ((some 0, [.int 1, .branch .b b!"a", .label b!"a", .plain .pop]), some 1, 699) := by decide +kernel
  obtain ⟨v, h1, h⟩ := Option.bind_eq_some_iff.1 h
  obtain ⟨w, h2, h⟩ := Option.bind_eq_some_iff.1 h
  obtain ⟨b, h3, h⟩ := Option.bind_eq_some_iff.1 h
  obtain ⟨b', h4, h⟩ := Option.map_eq_some_iff.1 h
  simp only [Prod.mk.injEq] at h
  exact ⟨v, w, b, b', after_session h1, ⟨h.1.1, h3, h.2.1, by rw [h.1.2]; rfl⟩, by rw [h.2.2]; decide, h2, h4, by decide +kernel⟩

end Teal.Props
