import Verif.Lemmas.Follow
import Verif.Props.Linter

/-!
# What the linter says, in the debugger
-/

namespace Teal
open Teal.Spec Teal.Props

/-- Going on at `j` ends at a place that passing over lines without effect leads to. -/
theorem reaches_closed {l : List Op} {Q : Nat → Prop} (hq : ∀ i o, At l i o → NoOp o → Q i → Q (i + 1)) {j x : Nat} (h : Reaches l j (some x))
    (hj : Q j) (hx : x < l.length) : Q x := by
  rcases h with ⟨y, hy, hle, -, hn⟩ | ⟨-, h⟩
  · cases hy
    have key : ∀ d, j + d ≤ x → Q (j + d) := by
      intro d
      induction d with
      | zero => intro _; exact hj
      | succ d ih =>
        intro hd
        obtain ⟨o, h1, h2⟩ := hn (j + d) (by omega) (by omega)
        exact hq _ o h1 h2 (ih (by omega))
    have := key (x - j) (by omega)
    rwa [show j + (x - j) = x by omega] at this
  · have := h x rfl
    omega

/-- A branch is where the linter thinks control can be. -/
def LiveBranch (l : List Op) (b : VmBranch) : Prop :=
  (∀ x, b.line = some x → x < l.length → live l x) ∧ ∀ r ∈ b.backs, live l r

theorem live_pass {l : List Op} (i : Nat) (o : Op) (h : At l i o) (hn : NoOp o) (hl : live l i) : live l (i + 1) :=
  live_next h hl (by cases hn <;> rfl)

theorem LiveBranch.stay {l : List Op} {b b' : VmBranch} (h : LiveBranch l b) (hs : b' = { b with line := b'.line, name := b'.name })
    (hl : b'.line = b.line ∨ b'.line = none) : LiveBranch l b' := by
  have hf : b'.backs = b.backs := by rw [hs]; rfl
  refine ⟨fun x hx => ?_, by rw [hf]; exact h.2⟩
  rcases hl with hl | hl
  · exact h.1 x (by rw [← hl]; exact hx)
  · rw [hl] at hx; cases hx

theorem live_label {l : List Op} {i : Nat} {o : Op} {t : Bytes} {j : Nat} (ho : At l i o) (hr : Refers o t) (hd : DefinedAt l t j) : live l j :=
  .inr ⟨t, hd, fun he => (labelUsers_eq_nil t l).1 he i o ho ((mem_labels_iff _ _).2 hr)⟩

theorem live_zero (l : List Op) : live l 0 := Or.inl (by simp [isDead, deadFlag])

/-- An executed instruction keeps its branch at such a place. -/
theorem goes_live {l : List Op} {o : Op} {i : Nat} {b b' : VmBranch} (h : Goes l o i b b') (ho : At l i o) (hi : live l i)
    (hb : ∀ r ∈ b.backs, live l r) : (∀ x, b'.line = some x → live l x) ∧ ∀ r ∈ b'.backs, live l r := by
  cases h with
  | next hn hl hbk _ _ =>
    refine ⟨fun x hx => ?_, by rw [hbk]; exact hb⟩
    rw [hl] at hx; cases hx
    refine live_next ho hi ?_
    cases hs : o.stopsFlow
    · rfl
    · exact (hn (stopsFlow_noFall hs)).elim
  | halt _ hl hf =>
    refine ⟨fun x hx => (by rw [hl] at hx; cases hx), ?_⟩
    unfold VmBranch.backs; rw [hf]; exact hb
  | lost t hob _ hl hb' hc =>
    refine ⟨fun x hx => (by rw [hl] at hx; cases hx), ?_⟩
    rcases hob with hob | hob
    · unfold VmBranch.backs; rw [hb' hob]; exact hb
    · obtain ⟨f, hf, hr⟩ := hc hob
      subst hob
      unfold VmBranch.backs; rw [hf, List.map_cons]
      intro r hr'
      rcases List.mem_cons.1 hr' with rfl | h
      · unfold VmFrame.back; rw [hr]; exact live_next ho hi rfl
      · exact hb r h
  | jump t j hob hd hl hf =>
    subst hob
    refine ⟨fun x hx => ?_, by unfold VmBranch.backs; rw [hf]; exact hb⟩
    rw [hl] at hx; cases hx
    exact live_label ho (.branch _ _) hd.1
  | call t j f hob hd hl hf hr =>
    subst hob
    refine ⟨fun x hx => ?_, ?_⟩
    · rw [hl] at hx; cases hx
      exact live_label ho (.branch _ _) hd.1
    · unfold VmBranch.backs; rw [hf, List.map_cons]
      intro r hr'
      rcases List.mem_cons.1 hr' with rfl | h
      · unfold VmFrame.back; rw [hr]; exact live_next ho hi rfl
      · exact hb r h
  | ret f fs hob hf hl hf' =>
    unfold VmBranch.backs at hb ⊢
    rw [hf, List.map_cons] at hb
    refine ⟨fun x hx => ?_, ?_⟩
    · rw [hl] at hx; cases hx; exact hb _ (by simp)
    · rw [hf']; intro r hr; exact hb r (List.mem_cons_of_mem _ hr)
  | retNone hob hf hl hf' =>
    subst hob
    refine ⟨fun x hx => ?_, by unfold VmBranch.backs; rw [hf']; intro r hr; cases hr⟩
    rw [hl] at hx; cases hx
    exact live_next ho hi rfl

theorem session_live {l : List Op} {version : Nat} {v : Vm} (h : Session l version v) : ∀ b ∈ v.branches, LiveBranch l b := by
  have main := (session_induct (P := fun v => v.listing = l ∧ ∀ (k : Nat) (b : VmBranch), v.branches[k]? = some b → LiveBranch l b) ?_ ?_ ?_ ?_ h).2.2
  · intro b hb
    obtain ⟨k, hk⟩ := List.getElem?_of_mem hb
    exact main k b hk
  · obtain ⟨y, nm, hnb, ⟨hi, he⟩ | ⟨hi, he⟩⟩ := new_cases l version <;> rw [he] <;> refine ⟨rfl, fun k b hb => ?_⟩ <;>
      (have := List.mem_of_getElem? hb; simp at this; subst this)
    · refine ⟨fun x hx hlt => ?_, by intro r hr; cases hr⟩
      cases hx
      exact reaches_closed live_pass (.inl ⟨y, rfl, Nat.zero_le _, instrAt_iff.1 hi, fun z _ hz => by
        obtain ⟨o, h1, h2⟩ := hnb z (Nat.zero_le _) hz
        exact ⟨o, h1, (isNop_iff _).1 h2⟩⟩) (live_zero l) hlt
    · exact ⟨fun x hx => (by cases hx), by intro r hr; cases hr⟩
  · rintro v w hv ⟨hl, hp⟩ hstep
    refine ⟨(step_listing hv hstep).1.trans hl, fun j b hb => ?_⟩
    have ofStart : v.start.branches[j]? = some b → LiveBranch l b := by
      intro h
      obtain ⟨b0, h1, h2⟩ := start_origin hv h
      exact (hp j b0 h1).stay h2.same h2.line
    have hs := step_spec hv
    rw [hstep] at hs
    generalize hr : some w = r at hs
    cases hs with
    | idle _ => cases hr; exact ofStart hb
    | costErr _ _ => cases hr; exact ofStart hb
    | @poor k b0 i o c ha _ _ =>
      cases hr
      rcases getElem?_set_cases hb with ⟨rfl, rfl⟩ | ⟨-, h⟩
      · exact (hp _ _ ha.old).stay rfl (.inr rfl)
      · exact ofStart h
    | hang => cases hr
    | @fail k b0 i o c e m ha hc hle hx =>
      cases hr
      obtain ⟨s, sc, -, hm⟩ := exec_panic hx
      subst hm
      simp only [Vm.writeBack, Vm.mach, List.append_nil] at hb
      rcases getElem?_set_cases hb with ⟨rfl, rfl⟩ | ⟨-, h⟩
      · exact ⟨(hp _ _ ha.old).1, (hp _ _ ha.old).2⟩
      · exact ofStart h
    | @done k b0 i o c m ha hc hle hx =>
      cases hr
      have hf := ha.finished hv hx
      have he := exec_ok rfl hx
      have hop : At l i o := by rw [← hl]; exact ha.op
      have hlt : i < l.length := (List.getElem?_eq_some_iff.1 hop).1
      have h0 := hp _ _ ha.old
      have hi := h0.1 i ha.line hlt
      have hg := exec_goes ha.line hx
      rw [hl] at hg
      obtain ⟨g1, g2⟩ := goes_live hg hop hi h0.2
      cases finished_origin hv hf hb with
      | other b1 hne h1 h2 => exact (hp _ _ h1).stay h2.same h2.line
      | self h1 h2 =>
        subst h1
        have hfr : b.frames = m.br.frames := by rw [h2.same]; dsimp only; rw [skipNops_same]
        refine ⟨fun x hx' hlx => ?_, by unfold VmBranch.backs at g2 ⊢; rw [hfr]; exact g2⟩
        cases hml : m.br.line with
        | none => rw [line_skip_none hml h2] at hx'; cases hx'
        | some j' =>
          have := reaches_skip hml h2
          rw [hl, hx'] at this
          exact reaches_closed live_pass this (g1 _ hml) hlx
      | fork y h1 h2 h3 =>
        obtain ⟨t, ts, hts, ht, hy⟩ := he.forks _ _ h2
        subst hy
        have hfr : b.frames = [] := by rw [h3.same]; dsimp only; rw [skipNops_same]
        refine ⟨fun x hx' hlx => ?_, by unfold VmBranch.backs; rw [hfr]; intro r hr; cases hr⟩
        cases hfl : findLabel v.listing t with
        | none =>
          rw [hfl] at h3
          rw [line_skip_none (by rfl) h3] at hx'; cases hx'
        | some j' =>
          rw [hfl] at h3
          have := reaches_skip (i := j') (by rfl) h3
          rw [hl, hx'] at this
          refine reaches_closed live_pass this ?_ hlx
          rw [hl] at hfl
          refine live_label hop ?_ (findLabel_some hfl).1
          refine (mem_labels_iff _ _).1 ?_
          rw [forksTo_labels hts]
          exact List.mem_of_getElem? ht
  · intro v id _ hp
    unfold Vm.switch
    split <;> exact hp
  · intro v w lns _ hp hb
    unfold Vm.setBreakpoints at hb
    cases hc : Vm.checkBreakpoints v.listing lns with
    | none => rw [hc] at hb; cases hb
    | some bps => rw [hc] at hb; cases hb; exact hp

/-! ## Loops -/

/-- An executed instruction inside a loop without exits keeps its branch inside. -/
theorem goes_loop {l : List Op} {o : Op} {i x j : Nat} {b b' : VmBranch} (h : Goes l o x b b') (ho : At l x o) (hjx : j ≤ x) (hxi : x ≤ i)
    (hex : ∀ k, j ≤ k → k ≤ i → ¬ Exit l j i k) : ∀ y, b'.line = some y → j ≤ y ∧ y ≤ i := by
  have inside : ∀ {rs : List Nat} {c : Nat × List Nat}, Step l (x, rs) c → j ≤ c.1 ∧ c.1 ≤ i := by
    intro rs c hs
    exact Classical.byContradiction fun hc => hex x hjx hxi (.leaves rs c hs hc)
  intro y hy
  cases h with
  | next hn hl _ _ _ =>
    rw [hl] at hy; cases hy
    exact inside (rs := []) (.next ho hn)
  | halt hh _ _ => exact (hex x hjx hxi (.ends o ho hh)).elim
  | lost t _ _ hl _ _ => rw [hl] at hy; cases hy
  | jump t j' hob hd hl _ =>
    subst hob
    rw [hl] at hy; cases hy
    exact inside (rs := []) (.jump ho (.branch _ _) (by simp) hd.1)
  | call t j' f hob hd hl _ _ =>
    subst hob
    rw [hl] at hy; cases hy
    exact inside (rs := []) (.call ho hd.1)
  | ret f fs hob _ _ _ => subst hob; exact (hex x hjx hxi (.returns ho)).elim
  | retNone hob _ _ _ => subst hob; exact (hex x hjx hxi (.returns ho)).elim

theorem loop_pass {l : List Op} {i j : Nat} (hex : ∀ k, j ≤ k → k ≤ i → ¬ Exit l j i k) (k : Nat) (o : Op) (ho : At l k o) (hn : NoOp o)
    (hk : j ≤ k ∧ k ≤ i) : j ≤ k + 1 ∧ k + 1 ≤ i := by
  refine Classical.byContradiction fun hc => hex k hk.1 hk.2 (.leaves [] (k + 1, []) (.next ho ?_) hc)
  intro h
  cases hn <;> cases h <;> rename_i h <;> cases h

/-- A branch inside a loop without exits stays there. -/
theorem continues_loop {l : List Op} {version : Nat} {v w : Vm} (h : Session l version v) (hc : Continues v w) {k i j x : Nat} {b b' : VmBranch}
    (hi : i < l.length) (hex : ∀ k, j ≤ k → k ≤ i → ¬ Exit l j i k) (hb : v.branches[k]? = some b) (hx : b.line = some x) (hjx : j ≤ x) (hxi : x ≤ i)
    (hb' : w.branches[k]? = some b') :
    (∀ y, b'.line = some y → j ≤ y ∧ y ≤ i) ∧ ∃ os, b'.trace = b.trace ++ os ∧ ∀ o ∈ os, ¬ Halts o := by
  refine continues_branch (P := fun b' => (∀ y, b'.line = some y → j ≤ y ∧ y ≤ i) ∧ ∃ os, b'.trace = b.trace ++ os ∧ ∀ o ∈ os, ¬ Halts o)
    h ?_ (List.getElem?_eq_some_iff.1 hb).1 ?_ hc b' hb'
  · intro b0 h0
    rw [hb] at h0; cases h0
    exact ⟨fun y hy => by rw [hx] at hy; cases hy; exact ⟨hjx, hxi⟩, [], by simp, by simp⟩
  · intro v w hv hl hk hp hstep herr b2 hb2
    have stay : ∀ {b1 : VmBranch}, v.branches[k]? = some b1 → b2 = { b1 with line := b2.line, name := b2.name } →
        (b2.line = b1.line ∨ b2.line = none) → (∀ y, b2.line = some y → j ≤ y ∧ y ≤ i) ∧ ∃ os, b2.trace = b.trace ++ os ∧ ∀ o ∈ os, ¬ Halts o := by
      intro b1 h1 h2 h3
      obtain ⟨p1, p2⟩ := hp b1 h1
      refine ⟨fun y hy => ?_, by rw [h2]; exact p2⟩
      rcases h3 with h3 | h3
      · exact p1 y (by rw [← h3]; exact hy)
      · rw [h3] at hy; cases hy
    have ofStart : v.start.branches[k]? = some b2 → (∀ y, b2.line = some y → j ≤ y ∧ y ≤ i) ∧ ∃ os, b2.trace = b.trace ++ os ∧ ∀ o ∈ os, ¬ Halts o := by
      intro h
      obtain ⟨b0, h1, h2⟩ := start_origin hv h
      exact stay h1 h2.same h2.line
    have hs := step_spec hv
    rw [hstep] at hs
    generalize hr : some w = r at hs
    cases hs with
    | idle _ => cases hr; exact ofStart hb2
    | costErr _ _ => cases hr; cases herr
    | @poor k' b0 i' o c ha _ _ =>
      cases hr
      rcases getElem?_set_cases hb2 with ⟨rfl, rfl⟩ | ⟨-, h⟩
      · exact stay ha.old rfl (.inr rfl)
      · exact ofStart h
    | hang => cases hr
    | fail _ _ _ _ => cases hr; cases herr
    | @done k' b0 i' o c m ha hc hle hx =>
      cases hr
      have hf := ha.finished hv hx
      have hop : At l i' o := by rw [← hl]; exact ha.op
      cases finished_origin hv hf hb2 with
      | other b1 hne h1 h2 => exact stay h1 h2.same h2.line
      | fork y h1 _ _ => omega
      | self h1 h2 =>
        subst h1
        obtain ⟨p1, os, p2, p3⟩ := hp _ ha.old
        obtain ⟨q1, q2⟩ := p1 _ ha.line
        have hg := exec_goes ha.line hx
        rw [hl] at hg
        refine ⟨fun y hy => ?_, os ++ [o], by rw [acted_trace hx h2, p2, List.append_assoc], ?_⟩
        · cases hml : m.br.line with
          | none => rw [line_skip_none hml h2] at hy; cases hy
          | some j' =>
            have hin := goes_loop hg hop q1 q2 hex j' hml
            have hre := reaches_skip hml h2
            rw [hl, hy] at hre
            rcases Nat.lt_or_ge y l.length with hlt | hge
            · exact reaches_closed (Q := fun z => j ≤ z ∧ z ≤ i) (loop_pass hex) hre hin hlt
            · exfalso
              rcases hre with ⟨z, hz, -, ⟨oz, hoz, -⟩, -⟩ | ⟨hnone, -⟩
              · cases hz
                have := (List.getElem?_eq_some_iff.1 hoz).1; omega
              · -- every place up to the end of the loop would be passed over
                have key : ∀ d, j' + d ≤ i + 1 → j ≤ j' + d ∧ j' + d ≤ i := by
                  intro d
                  induction d with
                  | zero => intro _; exact hin
                  | succ d ih =>
                    intro hd
                    obtain ⟨g1, g2⟩ := ih (by omega)
                    have hget := List.getElem?_eq_getElem (l := l) (i := j' + d) (by omega)
                    exact loop_pass hex _ _ hget (hnone _ _ (Nat.le_add_right _ _) hget) ⟨g1, g2⟩
                have := key (i + 1 - j') (by omega)
                omega
        · intro o' ho'
          rcases List.mem_append.1 ho' with h | h
          · exact p3 o' h
          · simp at h; subst h
            exact fun hh => hex i' q1 q2 (.ends _ hop hh)

end Teal
