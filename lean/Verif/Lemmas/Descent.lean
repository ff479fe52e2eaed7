import Verif.Lemmas.Real
import Verif.Spec.Descent
import Verif.Props.VmFlow

/-!
# Branches that return only from subroutines they have called themselves
-/

namespace Teal
open Teal.Spec Teal.Props

theorem descends_session {l : List Op} {version : Nat} {v : Vm} {k : Nat} {own : List Op} (h : Descends l version v k own) :
    Session l version v := by
  induction h with
  | new => exact .new
  | step _ h _ _ _ ih => exact .step ih h
  | fork _ h _ _ _ _ ih => exact .step ih h
  | other _ h _ _ ih => exact .step ih h
  | switch id _ ih => exact .switch id ih
  | breakpoints lns _ h ih => exact .breakpoints lns ih h

/-- The history of a branch is a path of the program, and it has a frame for each call it is in. -/
structure OwnPath (l : List Op) (own : List Op) (b : VmBranch) : Prop where
  last : b.trace = [] ∨ ∃ t o i rs, b.trace = t ++ [o] ∧ Walk l (0, []) t (i, rs) ∧ At l i o ∧ ¬ NoOp o
  here : ∀ x, b.line = some x → ∃ rs more, Walk l (0, []) b.trace (x, rs) ∧ rs = b.backs ++ more
  frames : excess 0 own = some b.frames.length
  traced : own <:+ b.trace

theorem noExcess_excess {tr : List Op} (h : NoExcessReturn tr) : ∃ n, excess 0 tr = some n :=
  excess_of_counts tr 0 (fun pre hp => by simpa using h pre hp)

theorem excess_snoc_other' {n m : Nat} {tr : List Op} {o : Op} (h1 : ∀ t, o ≠ .branch .callsub t) (h2 : o ≠ .plain .retsub)
    (h : excess n tr = some m) : excess n (tr ++ [o]) = some m := by
  rw [excess_append, h, Option.bind_some, excess_other m h1 h2]; simp [excess]

theorem excess_snoc_call' {n m : Nat} {tr : List Op} {t : Bytes} (h : excess n tr = some m) :
    excess n (tr ++ [.branch .callsub t]) = some (m + 1) := by
  rw [excess_append, h, Option.bind_some, excess_call]; simp [excess]

theorem suffix_snoc {own tr : List Op} (h : own <:+ tr) (o : Op) : own ++ [o] <:+ tr ++ [o] := by
  obtain ⟨p, rfl⟩ := h
  exact ⟨p, by simp⟩

theorem ownPath_acted {v : Vm} {own : List Op} {b b' : VmBranch} {k i : Nat} {o : Op} {c : Int} {m : Mach} (hp : OwnPath v.listing own b)
    (ha : Acts v k b i o) (hx : v.executeOp o (v.mach b o c) = .ok () m)
    (hr : Retired v.listing (m.br.skipNops v.listing v.breakpoints).2.1 b') (hn : NoExcessReturn (own ++ [o])) :
    OwnPath v.listing (own ++ [o]) b' := by
  obtain ⟨h1, h2, h3, h4⟩ := hp
  obtain ⟨n, hn⟩ := noExcess_excess hn
  have htr := acted_trace hx hr
  have hfr := acted_frames hr
  have hbk : b'.backs = m.br.backs := backs_congr hfr
  have hg := exec_goes ha.line hx
  obtain ⟨rs, more, hw, hrs⟩ := h2 i ha.line
  have hat := acts_at ha
  have hno := acts_instr ha
  refine ⟨.inr ⟨b.trace, o, i, rs, htr, hw, hat, hno⟩, fun x hline => ?_, ?_, by rw [htr]; exact suffix_snoc h4 o⟩
  · rw [htr, hbk]
    cases hg with
    | next hn hl hb _ _ => exact ⟨rs, more, walk_reaches (.exec hw hat hno (.next hat hn)) hl hr hline, by rw [hb]; exact hrs⟩
    | halt _ hl _ => rw [line_skip_none hl hr] at hline; cases hline
    | lost t _ _ hl _ _ => rw [line_skip_none hl hr] at hline; cases hline
    | jump t y ho hd hl hf =>
      subst ho
      exact ⟨rs, more, walk_reaches (.exec hw hat hno (.jump hat (.branch _ _) (fun h => by cases h) hd.1)) hl hr hline,
        by rw [backs_congr hf]; exact hrs⟩
    | call t y f ho hd hl hf hret =>
      subst ho
      have hb : m.br.backs = (i + 1) :: b.backs := by
        unfold VmBranch.backs; rw [hf, List.map_cons, VmFrame.back, hret]
      exact ⟨(i + 1) :: rs, more, walk_reaches (.exec hw hat hno (.call hat hd.1)) hl hr hline, by rw [hb, hrs]; rfl⟩
    | ret f fs ho hbf hl hf =>
      subst ho
      have hb : b.backs = f.back :: m.br.backs := by
        unfold VmBranch.backs; rw [hbf, hf]; rfl
      rw [hb] at hrs
      subst hrs
      exact ⟨m.br.backs ++ more, more, walk_reaches (.exec hw hat hno (.ret hat)) hl hr hline, rfl⟩
    | retNone ho hbf hl hf =>
      subst ho
      have h5 := excess_snoc_ret hn
      rw [h3, hbf] at h5
      simp at h5
  · rw [hfr]
    cases hg with
    | next hn' _ hb _ _ =>
      obtain ⟨n1, n2⟩ := noFall_not hn'
      have : m.br.frames.length = b.frames.length := by simpa [VmBranch.backs] using congrArg List.length hb
      rw [this]; exact excess_snoc_other' n1 n2 h3
    | halt hh _ hf =>
      obtain ⟨n1, n2⟩ := halts_not hh
      rw [hf]; exact excess_snoc_other' n1 n2 h3
    | lost t ho _ _ hf1 hf2 =>
      rcases ho with ho | ho
      · rw [hf1 ho]; subst ho
        exact excess_snoc_other' (fun t h => by cases h) (fun h => by cases h) h3
      · obtain ⟨f, hf, -⟩ := hf2 ho
        subst ho
        rw [hf, List.length_cons]; exact excess_snoc_call' h3
    | jump t y ho _ _ hf =>
      subst ho
      rw [hf]; exact excess_snoc_other' (fun t h => by cases h) (fun h => by cases h) h3
    | call t y f ho _ _ hf _ =>
      subst ho
      rw [hf, List.length_cons]; exact excess_snoc_call' h3
    | ret f fs ho hbf _ hf =>
      subst ho
      have h5 := excess_snoc_ret hn
      rw [h3, hbf] at h5
      simp only [List.length_cons, Option.some.injEq] at h5
      rw [hn, hf]; congr 1; omega
    | retNone ho hbf hl hf =>
      subst ho
      have h5 := excess_snoc_ret hn
      rw [h3, hbf] at h5
      simp at h5

theorem ownPath_stayed {l own : List Op} {b b' : VmBranch} (hp : OwnPath l own b)
    (hs : b' = { b with line := b'.line, name := b'.name }) (hl : b'.line = b.line ∨ b'.line = none) : OwnPath l own b' := by
  obtain ⟨h1, h2, h3, h4⟩ := hp
  obtain ⟨e1, e2, -⟩ := stayed_same hs
  refine ⟨by rw [e2]; exact h1, fun x hx => ?_, by rw [e1]; exact h3, by rw [e2]; exact h4⟩
  rw [e2, backs_congr e1]
  rcases hl with hl | hl
  · exact h2 x (by rw [← hl]; exact hx)
  · rw [hl] at hx; cases hx

theorem descends_path {l : List Op} {version : Nat} {v : Vm} {k : Nat} {own : List Op} (h : Descends l version v k own) :
    ∃ b, v.branches[k]? = some b ∧ OwnPath l own b := by
  induction h with
  | new =>
    obtain ⟨b, hb⟩ : ∃ b, (Vm.new l version).branches[0]? = some b := by
      obtain ⟨y, nm, hn, ⟨-, he⟩ | ⟨-, he⟩⟩ := new_cases l version <;> rw [he] <;> exact ⟨_, rfl⟩
    obtain ⟨h1, h2⟩ := onPath_new hb
    refine ⟨b, hb, h1, fun x hx => ?_, ?_, ?_⟩
    · obtain ⟨rs, more, h3, h4, -⟩ := h2 x hx
      exact ⟨rs, more, h3, h4⟩
    · obtain ⟨y, nm, hn, ⟨-, he⟩ | ⟨-, he⟩⟩ := new_cases l version <;> rw [he] at hb <;> cases hb <;> rfl
    · exact List.nil_suffix
  | @step v w k own o h0 h he hx hn ih =>
    have hv := session_inv (descends_session h0)
    have hl := (session_listing (descends_session h0)).1
    subst hl
    obtain ⟨b, hb, hp⟩ := ih
    obtain ⟨b1, b', e1, hb', ht⟩ := hx
    rw [hb] at e1; cases e1
    refine ⟨b', hb', ?_⟩
    cases step_did hv h he hb' with
    | stayed b1 g1 g2 _ =>
      rw [hb] at g1; cases g1
      rw [(stayed_same g2).2.1] at ht
      exact (append_ne _ _ ht).elim
    | acted b1 i o1 c m ha hcost hle hx hr _ =>
      have e := ha.old
      rw [hb] at e; cases e
      rw [acted_trace hx hr] at ht
      have ht := List.append_cancel_left ht
      cases ht
      exact ownPath_acted hp ha hx hr hn
    | forked k1 b1 i o1 c m ts t x hle =>
      have := (List.getElem?_eq_some_iff.1 hb).1
      omega
  | @fork v w k k' own o h0 h he hx hk1 hk2 ih =>
    have hv := session_inv (descends_session h0)
    have hl := (session_listing (descends_session h0)).1
    subst hl
    obtain ⟨b, hb, hp⟩ := ih
    refine ⟨_, List.getElem?_eq_getElem hk2, ?_⟩
    obtain ⟨b1, i1, c1, m1, ha1, -, -⟩ := step_executed hv h he hx
    cases step_did hv h he (List.getElem?_eq_getElem hk2) with
    | stayed b1 g1 g2 _ =>
      have := (List.getElem?_eq_some_iff.1 g1).1
      omega
    | acted b1 i o1 c m ha hcost hle hx hr _ =>
      have := (List.getElem?_eq_some_iff.1 ha.old).1
      omega
    | forked k1 b2 i o1 c m ts t x hle ha hcost _ hx hts ht hxx hr _ =>
      have e := ha1.sel.symm.trans ha.sel
      cases e
      have e := ha.old
      rw [hb] at e; cases e
      obtain ⟨h1, h2, h3, h4⟩ := hp
      generalize w.branches[k'] = b' at hr
      have htr : b'.trace = b.trace ++ [o1] := by rw [hr.trace, skipNops_trace, hxx]
      have hfr : b'.frames = [] := by rw [hr.frames, skipNops_frames, hxx]
      obtain ⟨rs, more, hw, hrs⟩ := h2 i ha.line
      have hat := acts_at ha
      have hno := acts_instr ha
      refine ⟨.inr ⟨b.trace, o1, i, rs, htr, hw, hat, hno⟩, fun y hline => ?_, by rw [hfr]; rfl, List.nil_suffix⟩
      rw [htr]
      refine ⟨rs, rs, ?_, by simp [VmBranch.backs, hfr]⟩
      cases hlab : findLabel v.listing t with
      | none =>
        have : x.line = none := by rw [hxx]; exact hlab
        rw [line_skip_none this hr] at hline; cases hline
      | some z =>
        have : x.line = some z := by rw [hxx]; exact hlab
        obtain ⟨r1, r2⟩ := refers_fork hts ht
        exact walk_reaches (.exec hw hat hno (.jump hat r1 r2 (findLabel_some hlab).1)) this hr hline
  | @other v w k own h0 h he hx ih =>
    have hv := session_inv (descends_session h0)
    have hl := (session_listing (descends_session h0)).1
    subst hl
    obtain ⟨b, hb, hp⟩ := ih
    obtain ⟨b', hb'⟩ := step_grows hv h hb
    refine ⟨b', hb', ?_⟩
    cases step_did hv h he hb' with
    | stayed b1 g1 g2 g3 =>
      rw [hb] at g1; cases g1
      exact ownPath_stayed hp g2 g3
    | acted b1 i o1 c m ha hcost hle h1 hr _ =>
      have e := ha.old
      rw [hb] at e; cases e
      exact (hx o1 ⟨b, b', hb, hb', acted_trace h1 hr⟩).elim
    | forked k1 b1 i o1 c m ts t x hle =>
      have := (List.getElem?_eq_some_iff.1 hb).1
      omega
  | @switch v k own id h0 ih =>
    obtain ⟨b, hb, hp⟩ := ih
    exact ⟨b, by rw [(switch_same v id).1]; exact hb, hp⟩
  | @breakpoints v w k own lns h0 h ih =>
    obtain ⟨b, hb, hp⟩ := ih
    exact ⟨b, by rw [setBreakpoints_branches h]; exact hb, hp⟩

end Teal
