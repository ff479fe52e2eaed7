import Verif.Lemmas.VmPath

/-!
# Invariants about calls, paths and breakpoints
-/

namespace Teal
open Teal.Spec

/-! ## Calls -/

theorem acts_at {v : Vm} {k i : Nat} {b : VmBranch} {o : Op} (h : Acts v k b i o) : At v.listing i o := h.op

theorem acts_instr {v : Vm} {k i : Nat} {b : VmBranch} {o : Op} (h : Acts v k b i o) : ¬ NoOp o := nop_iff.1 h.instr

theorem stayed_same {b b' : VmBranch} (h : b' = { b with line := b'.line, name := b'.name }) :
    b'.frames = b.frames ∧ b'.trace = b.trace ∧ b'.stack = b.stack ∧ b'.budget = b.budget ∧ b'.id = b.id := by
  rw [h]; exact ⟨rfl, rfl, rfl, rfl, rfl⟩

/-- What a branch that was at a call looks like later. -/
structure Called (l : List Op) (b0 : VmBranch) (i : Nat) (t : Bytes) (b : VmBranch) : Prop where
  cases : (b.trace = b0.trace ∧ b.frames = b0.frames ∧ (b.line = some i ∨ b.line = none)) ∨
    ∃ rest, b.trace = b0.trace ++ .branch .callsub t :: rest ∧
      (∀ n, excess 0 rest = some n → ∃ pre f, b.frames = pre ++ f :: b0.frames ∧ pre.length = n ∧ f.back = i + 1) ∧
      (∀ mid, rest = mid ++ [.plain .retsub] → excess 0 mid = some 0 →
        b.frames = b0.frames ∧ (b.line = none ∨ Reaches l (i + 1) b.line))

theorem frames_top {fs fs' : List VmFrame} {pre : List VmFrame} {f : VmFrame} {F : List VmFrame} {i : Nat}
    (h : fs = pre ++ f :: F) (hr : f.back = i + 1) (hb : fs'.map VmFrame.back = fs.map VmFrame.back)
    (ht : fs'.tail = fs.tail) (hl : fs'.length = fs.length) :
    ∃ pre' f', fs' = pre' ++ f' :: F ∧ pre'.length = pre.length ∧ f'.back = i + 1 := by
  subst h
  cases pre with
  | nil =>
    cases fs' with
    | nil => simp at hl
    | cons f' F' =>
      simp only [List.nil_append, List.tail_cons] at ht
      subst ht
      simp only [List.nil_append, List.map_cons, List.cons.injEq] at hb
      exact ⟨[], f', rfl, rfl, hb.1.trans hr⟩
  | cons p pre =>
    cases fs' with
    | nil => simp at hl
    | cons p' F' =>
      simp only [List.cons_append, List.tail_cons] at ht
      subst ht
      exact ⟨p' :: pre, f, rfl, rfl, hr⟩

theorem excess_snoc_call {n m : Nat} {tr : List Op} {t : Bytes} (h : excess n (tr ++ [.branch .callsub t]) = some m) :
    ∃ d, excess n tr = some d ∧ m = d + 1 := by
  rw [excess_append] at h
  obtain ⟨d, h1, h2⟩ := Option.bind_eq_some_iff.1 h
  rw [excess_call] at h2; simp only [excess, Option.some.injEq] at h2
  exact ⟨d, h1, h2.symm⟩

theorem excess_snoc_ret {n m : Nat} {tr : List Op} (h : excess n (tr ++ [.plain .retsub]) = some m) :
    excess n tr = some (m + 1) := by
  rw [excess_append] at h
  obtain ⟨d, h1, h2⟩ := Option.bind_eq_some_iff.1 h
  cases d with
  | zero => rw [excess_ret_zero] at h2; cases h2
  | succ d =>
    rw [excess_ret_succ] at h2; simp only [excess, Option.some.injEq] at h2
    rw [h1, h2]

theorem excess_snoc_other {n m : Nat} {tr : List Op} {o : Op} (h1 : ∀ t, o ≠ .branch .callsub t) (h2 : o ≠ .plain .retsub)
    (h : excess n (tr ++ [o]) = some m) : excess n tr = some m := by
  rw [excess_append] at h
  obtain ⟨d, h3, h4⟩ := Option.bind_eq_some_iff.1 h
  rw [excess_other d h1 h2] at h4; simp only [excess, Option.some.injEq] at h4
  rw [h3, h4]

theorem noFall_not {o : Op} (h : ¬ NoFallThrough o) : (∀ t, o ≠ .branch .callsub t) ∧ o ≠ .plain .retsub :=
  ⟨fun t h' => h (h' ▸ .callsub t), fun h' => h (h' ▸ .retsub)⟩

theorem halts_not {o : Op} (h : Halts o) : (∀ t, o ≠ .branch .callsub t) ∧ o ≠ .plain .retsub := by
  cases h <;> exact ⟨fun t h' => (by cases h'), fun h' => (by cases h')⟩

theorem called_step {v w : Vm} (hv : Inv v) {k i : Nat} {b0 : VmBranch} {t : Bytes} (hi : At v.listing i (.branch .callsub t))
    (hk : k < v.branches.length) (hc : ∀ b, v.branches[k]? = some b → Called v.listing b0 i t b) (h : v.step = some w)
    (he : w.error = none) : ∀ b, w.branches[k]? = some b → Called v.listing b0 i t b := by
  intro b' hb'
  cases step_did hv h he hb' with
  | stayed b hb hs hl =>
    obtain ⟨e1, e2, -⟩ := stayed_same hs
    rcases (hc b hb).cases with ⟨h1, h2, h3⟩ | ⟨rest, h1, h2, h3⟩
    · refine ⟨.inl ⟨e2.trans h1, e1.trans h2, ?_⟩⟩
      rcases hl with hl | hl
      · rw [hl]; exact h3
      · exact .inr hl
    · refine ⟨.inr ⟨rest, e2.trans h1, ?_, ?_⟩⟩
      · rw [e1]; exact h2
      · intro mid hm hx
        obtain ⟨g1, g2⟩ := h3 mid hm hx
        refine ⟨e1.trans g1, ?_⟩
        rcases hl with hl | hl
        · rw [hl]; exact g2
        · exact .inl hl
  | forked k' b i' o c m ts t' x hle => exact absurd hk (by omega)
  | acted b i' o c m ha hcost hle hx hr _ =>
    have htr := acted_trace hx hr
    have hfr := acted_frames hr
    have hg := exec_goes ha.line hx
    rcases (hc b ha.old).cases with ⟨h1, h2, h3⟩ | ⟨rest, h1, h2, h3⟩
    · -- the call itself
      have : i' = i := by
        rcases h3 with h3 | h3
        · rw [ha.line] at h3; cases h3; rfl
        · rw [ha.line] at h3; cases h3
      subst this
      have ho : o = .branch .callsub t := by
        have e := ha.op
        unfold At at hi; rw [hi] at e; cases e; rfl
      subst ho
      refine ⟨.inr ⟨[], by rw [htr, h1], ?_, fun mid hm => by cases mid <;> cases hm⟩⟩
      intro n hn
      simp only [excess, Option.some.injEq] at hn; subst hn
      cases hg with
      | next hn => exact absurd (.callsub t) hn
      | halt hh => exact absurd rfl ((halts_not hh).1 t)
      | lost t' _ _ _ _ hf =>
        rename_i ho _ _ _
        rcases ho with ho | ho
        · cases ho
        · obtain ⟨f, g1, g2⟩ := hf ho
          exact ⟨[], f, by rw [hfr, g1, h2]; rfl, rfl, by rw [VmFrame.back, g2]⟩
      | jump t' j ho => cases ho
      | call t' j f ho _ _ g1 g2 =>
        exact ⟨[], f, by rw [hfr, g1, h2]; rfl, rfl, by rw [VmFrame.back, g2]⟩
      | ret f fs ho => cases ho
      | retNone ho => cases ho
    · refine ⟨.inr ⟨rest ++ [o], by rw [htr, h1]; simp, ?_, ?_⟩⟩
      · intro n hn
        rw [hfr]
        have same : ∀ d, excess 0 rest = some d → m.br.frames = b.frames → ∃ pre f, m.br.frames = pre ++ f :: b0.frames ∧ pre.length = d ∧ f.back = i + 1 := by
          intro d hd hf
          rw [hf]; exact h2 d hd
        have pushed : ∀ d f, excess 0 rest = some d → m.br.frames = f :: b.frames → ∃ pre f, m.br.frames = pre ++ f :: b0.frames ∧ pre.length = d + 1 ∧ f.back = i + 1 := by
          intro d f hd hf
          obtain ⟨pre, f1, g1, g2, g3⟩ := h2 d hd
          exact ⟨f :: pre, f1, by rw [hf, g1]; rfl, by simp [g2], g3⟩
        cases hg with
        | next hn' _ hb ht hl =>
          obtain ⟨n1, n2⟩ := noFall_not hn'
          obtain ⟨pre, f, g1, g2, g3⟩ := h2 n (excess_snoc_other n1 n2 hn)
          obtain ⟨pre', f', g4, g5, g6⟩ := frames_top g1 g3 hb ht hl
          exact ⟨pre', f', g4, g5.trans g2, g6⟩
        | halt hh _ hf =>
          obtain ⟨n1, n2⟩ := halts_not hh
          exact same n (excess_snoc_other n1 n2 hn) hf
        | lost t' ho _ _ hf1 hf2 =>
          rcases ho with ho | ho
          · subst ho
            exact same n (excess_snoc_other (fun t h' => by cases h') (fun h' => by cases h') hn) (hf1 rfl)
          · obtain ⟨f, g1, -⟩ := hf2 ho
            subst ho
            obtain ⟨d, hd, rfl⟩ := excess_snoc_call hn
            exact pushed d f hd g1
        | jump t' j ho _ _ hf =>
          subst ho
          exact same n (excess_snoc_other (fun t h' => by cases h') (fun h' => by cases h') hn) hf
        | call t' j f ho _ _ g1 _ =>
          subst ho
          obtain ⟨d, hd, rfl⟩ := excess_snoc_call hn
          exact pushed d f hd g1
        | ret f fs ho hbf _ hmf =>
          subst ho
          obtain ⟨pre, f1, g1, g2, g3⟩ := h2 _ (excess_snoc_ret hn)
          cases pre with
          | nil => cases g2
          | cons p pre =>
            rw [hbf] at g1
            simp only [List.cons_append, List.cons.injEq] at g1
            exact ⟨pre, f1, by rw [hmf, g1.2], by simpa using g2, g3⟩
        | retNone ho hbf =>
          subst ho
          obtain ⟨pre, f1, g1, g2, g3⟩ := h2 _ (excess_snoc_ret hn)
          rw [hbf] at g1; simp at g1
      · intro mid hm hx0
        obtain ⟨e1, e2⟩ := List.append_inj' hm rfl
        cases e2
        subst e1
        obtain ⟨pre, f1, g1, g2, g3⟩ := h2 0 hx0
        cases pre with
        | cons p pre => cases g2
        | nil =>
          rw [hfr]
          cases hg with
          | next hn' => exact absurd .retsub hn'
          | halt hh => exact absurd rfl (halts_not hh).2
          | lost t' ho => rcases ho with ho | ho <;> cases ho
          | jump t' j ho => cases ho
          | call t' j f ho => cases ho
          | ret f fs ho hbf hline hmf =>
            rw [hbf] at g1
            simp only [List.nil_append, List.cons.injEq] at g1
            rw [g1.1, g3] at hline
            exact ⟨hmf.trans g1.2, .inr (reaches_skip hline hr)⟩
          | retNone ho hbf => rw [hbf] at g1; simp at g1

/-! ## Paths -/

/-- In every prefix there are at least as many calls as returns. -/
def Nested (tr : List Op) : Prop := ∃ n, excess 0 tr = some n

theorem nested_prefix {tr tr' : List Op} (h : Nested (tr ++ tr')) : Nested tr := by
  obtain ⟨n, h⟩ := h
  rw [excess_append] at h
  obtain ⟨d, h1, -⟩ := Option.bind_eq_some_iff.1 h
  exact ⟨d, h1⟩

/-- The histories for which the machine follows the program. -/
def Followed (j : Nat) (tr : List Op) : Prop := .plain .retsub ∉ tr ∨ (j = 0 ∧ Nested tr)

theorem Followed.prefix {j : Nat} {tr tr' : List Op} (h : Followed j (tr ++ tr')) : Followed j tr := by
  rcases h with h | ⟨h1, h2⟩
  · exact .inl fun h' => h (List.mem_append_left _ h')
  · exact .inr ⟨h1, nested_prefix h2⟩

/-- The history of a branch is a path of the program, which ends where the branch is. -/
structure OnPath (l : List Op) (j : Nat) (b : VmBranch) : Prop where
  last : b.trace = [] ∨ ∃ t o i rs, b.trace = t ++ [o] ∧ Walk l (0, []) t (i, rs) ∧ At l i o ∧ ¬ NoOp o
  here : ∀ x, b.line = some x → ∃ rs more, Walk l (0, []) b.trace (x, rs) ∧ rs = b.backs ++ more ∧
    (j = 0 → more = [] ∧ (Nested b.trace → excess 0 b.trace = some b.backs.length))

theorem refers_fork {o : Op} {ts : List Bytes} (h : o.forksTo? = some ts) {d : Nat} {t : Bytes} (ht : ts[d]? = some t) :
    Refers o t ∧ o ≠ .branch .callsub t := by
  have hm := List.mem_of_getElem? ht
  cases forks_iff.2 h with
  | bnz n => simp at hm; subst hm; exact ⟨.branch _ _, fun h => by cases h⟩
  | bz n => simp at hm; subst hm; exact ⟨.branch _ _, fun h => by cases h⟩
  | switch ns => exact ⟨.switch _ _ hm, fun h => by cases h⟩
  | match_ ns => exact ⟨.match_ _ _ hm, fun h => by cases h⟩

theorem onPath_step {v w : Vm} (hv : Inv v) (hp : ∀ (j : Nat) (b : VmBranch), v.branches[j]? = some b → Followed j b.trace → OnPath v.listing j b)
    (h : v.step = some w) (he : w.error = none) : ∀ (j : Nat) (b : VmBranch), w.branches[j]? = some b → Followed j b.trace →
      OnPath v.listing j b := by
  intro j b' hb' hfol
  cases step_did hv h he hb' with
  | stayed b hb hs hl =>
    obtain ⟨e1, e2, -⟩ := stayed_same hs
    rw [e2] at hfol
    obtain ⟨h1, h2⟩ := hp j b hb hfol
    refine ⟨by rw [e2]; exact h1, fun x hx => ?_⟩
    rw [e2, backs_congr e1]
    refine h2 x ?_
    rcases hl with hl | hl
    · rw [← hl]; exact hx
    · rw [hl] at hx; cases hx
  | acted b i o c m ha hcost hle hx hr _ =>
    have htr := acted_trace hx hr
    have hbk : b'.backs = m.br.backs := backs_congr (acted_frames hr)
    have hg := exec_goes ha.line hx
    rw [htr] at hfol
    obtain ⟨h1, h2⟩ := hp j b ha.old hfol.prefix
    obtain ⟨rs, more, hw, hrs, hz⟩ := h2 i ha.line
    refine ⟨.inr ⟨b.trace, o, i, rs, htr, hw, acts_at ha, acts_instr ha⟩, fun x hline => ?_⟩
    rw [htr, hbk]
    have hat := acts_at ha
    have hno := acts_instr ha
    have other : ∀ y, m.br.line = some y → Teal.Spec.Step v.listing (i, rs) (y, rs) → m.br.backs = b.backs →
        (∀ t, o ≠ .branch .callsub t) → o ≠ .plain .retsub →
        ∃ rs more, Walk v.listing (0, []) (b.trace ++ [o]) (x, rs) ∧ rs = m.br.backs ++ more ∧
          (j = 0 → more = [] ∧ (Nested (b.trace ++ [o]) → excess 0 (b.trace ++ [o]) = some m.br.backs.length)) := by
      intro y hy hstep hb n1 n2
      refine ⟨rs, more, walk_reaches (.exec hw hat hno hstep) hy hr hline, by rw [hb]; exact hrs, fun hj => ⟨(hz hj).1, ?_⟩⟩
      rintro ⟨n, hn⟩
      have := excess_snoc_other n1 n2 hn
      rw [(hz hj).2 ⟨n, this⟩] at this
      rw [hn, hb]; exact this.symm
    cases hg with
    | next hn hl hb _ _ =>
      obtain ⟨n1, n2⟩ := noFall_not hn
      exact other _ hl (.next hat hn) hb n1 n2
    | halt _ hl _ => rw [line_skip_none hl hr] at hline; cases hline
    | lost t _ _ hl _ _ => rw [line_skip_none hl hr] at hline; cases hline
    | jump t y ho hd hl hf =>
      subst ho
      exact other y hl (.jump hat (.branch _ _) (fun h => by cases h) hd.1) (backs_congr hf) (fun t h => by cases h) (fun h => by cases h)
    | call t y f ho hd hl hf hret =>
      subst ho
      have hb : m.br.backs = (i + 1) :: b.backs := by
        unfold VmBranch.backs; rw [hf, List.map_cons, VmFrame.back, hret]
      refine ⟨(i + 1) :: rs, more, walk_reaches (.exec hw hat hno (.call hat hd.1)) hl hr hline, by rw [hb, hrs]; rfl,
        fun hj => ⟨(hz hj).1, ?_⟩⟩
      rintro ⟨n, hn⟩
      obtain ⟨d, hd, rfl⟩ := excess_snoc_call hn
      rw [(hz hj).2 ⟨d, hd⟩] at hd
      cases hd
      rw [hn, hb]; rfl
    | ret f fs ho hbf hl hf =>
      subst ho
      have hb : b.backs = f.back :: m.br.backs := by
        unfold VmBranch.backs; rw [hbf, hf]; rfl
      rw [hb] at hrs
      subst hrs
      refine ⟨m.br.backs ++ more, more, walk_reaches (.exec hw hat hno (.ret hat)) hl hr hline, rfl, fun hj => ⟨(hz hj).1, ?_⟩⟩
      rintro ⟨n, hn⟩
      have h3 := excess_snoc_ret hn
      rw [(hz hj).2 ⟨_, h3⟩, hb] at h3
      simp only [List.length_cons, Option.some.injEq] at h3
      rw [hn]; congr 1; omega
    | retNone ho hbf hl hf =>
      subst ho
      rcases hfol with hfol | ⟨hj, n, hn⟩
      · exact absurd (by simp) hfol
      · have h3 := excess_snoc_ret hn
        rw [(hz hj).2 ⟨_, h3⟩] at h3
        simp [VmBranch.backs, hbf] at h3
  | forked k b i o c m ts t x hle ha hcost _ hx hts ht hxx hr _ =>
    have hj : j ≠ 0 := by have := hv.current; omega
    have htr : b'.trace = b.trace ++ [o] := by rw [hr.trace, skipNops_trace, hxx]
    have hfr : b'.frames = [] := by rw [hr.frames, skipNops_frames, hxx]
    rw [htr] at hfol
    have hfol' : Followed k b.trace := by
      rcases hfol with h | ⟨h, -⟩
      · exact .inl fun h' => h (List.mem_append_left _ h')
      · exact absurd h hj
    obtain ⟨h1, h2⟩ := hp k b ha.old hfol'
    obtain ⟨rs, more, hw, hrs, hz⟩ := h2 i ha.line
    have hat := acts_at ha
    have hno := acts_instr ha
    refine ⟨.inr ⟨b.trace, o, i, rs, htr, hw, hat, hno⟩, fun y hline => ?_⟩
    rw [htr]
    refine ⟨rs, rs, ?_, by simp [VmBranch.backs, hfr], fun h => absurd h hj⟩
    cases hlab : findLabel v.listing t with
    | none =>
      have : x.line = none := by rw [hxx]; exact hlab
      rw [line_skip_none this hr] at hline; cases hline
    | some z =>
      have : x.line = some z := by rw [hxx]; exact hlab
      obtain ⟨r1, r2⟩ := refers_fork hts ht
      exact walk_reaches (.exec hw hat hno (.jump hat r1 r2 (findLabel_some hlab).1)) this hr hline

theorem onPath_new {l : List Op} {version : Nat} {j : Nat} {b : VmBranch} (h : (Vm.new l version).branches[j]? = some b) :
    OnPath l j b := by
  obtain ⟨y, nm, hn, ⟨-, he⟩ | ⟨-, he⟩⟩ := new_cases l version <;> rw [he] at h
  · cases j with
    | succ j => simp at h
    | zero =>
      cases h
      refine ⟨.inl rfl, fun x hx => ⟨[], [], ?_, rfl, fun _ => ⟨rfl, fun _ => rfl⟩⟩⟩
      cases hx
      refine walk_nops .refl y (Nat.zero_le _) fun z h1 h2 => ?_
      obtain ⟨o, h3, h4⟩ := hn z h1 h2
      exact ⟨o, h3, (isNop_iff o).1 h4⟩
  · cases j with
    | succ j => simp at h
    | zero =>
      cases h
      exact ⟨.inl rfl, fun x hx => by cases hx⟩

theorem clean_onPath {l : List Op} {version : Nat} {v : Vm} (h : Clean l version v) {j : Nat} {b : VmBranch}
    (hb : v.branches[j]? = some b) (hf : Followed j b.trace) : OnPath l j b := by
  refine clean_branches (P := fun j b => Followed j b.trace → OnPath l j b) (fun j b h _ => onPath_new h) ?_ h j b hb hf
  intro v w hv hl hp hs he
  subst hl
  exact onPath_step hv hp hs he

/-! ## Breakpoints -/

/-- When no branch is selected, all have exited. -/
theorem session_idle {l : List Op} {version : Nat} {v : Vm} (h : Session l version v) :
    v.branch = none → ∀ b ∈ v.branches, b.line = none := by
  refine (session_induct (P := fun v => v.branch = none → ∀ b ∈ v.branches, b.line = none) ?_ ?_ ?_ ?_ h).2
  · obtain ⟨y, nm, hn, ⟨-, he⟩ | ⟨-, he⟩⟩ := new_cases l version <;> rw [he]
    · intro h; cases h
    · intro _ b hb; simp at hb; subst hb; rfl
  · intro v w hv _ hstep
    have hs := step_spec hv
    rw [hstep] at hs
    generalize hr : some w = r at hs
    cases hs with
    | idle _ => cases hr; exact (start_skip hv).2
    | costErr ha _ => cases hr; intro h; have h2 : v.start.branch = none := h; rw [ha.sel] at h2; cases h2
    | poor ha _ _ => cases hr; intro h; have h2 : v.start.branch = none := h; rw [ha.sel] at h2; cases h2
    | hang => cases hr
    | fail ha _ _ _ => cases hr; intro h; have h2 : v.start.branch = none := h; rw [ha.sel] at h2; cases h2
    | done ha _ _ hx => cases hr; exact (ha.finished hv hx).none
  · intro v id hv hp
    unfold Vm.switch
    split
    · intro h; cases h
    · exact hp
  · intro v w lns hv hp h
    have := setBreakpoints_branches h
    unfold Vm.setBreakpoints at h
    obtain ⟨bps, -, h⟩ := Option.map_eq_some_iff.1 h
    subst h
    exact hp

theorem skip_trig {v : Vm} (hv : Inv v) {b b' : VmBranch} {e : Nat × Nat}
    (he : e ∈ (b.skipNops v.listing v.breakpoints).2.2) (hr : Retired v.listing (b.skipNops v.listing v.breakpoints).2.1 b') :
    e.1 = b.id ∧ e.2 ∈ v.breakpoints ∧ b'.line = some e.2 := by
  cases hb : b.line with
  | none => rw [skipNops_none _ _ _ hb] at he; cases he
  | some i =>
    obtain ⟨j, hij, hr', hnb, ht, hf, -, u, hu, hu1, -⟩ := (skipNops_some v.listing v.breakpoints b i hb).land
    rw [hu, List.nil_append] at he
    obtain ⟨h1, h2, h3, h4⟩ := hu1 e he
    have hin := hv.bps _ h2
    have : e.2 = j := by
      rcases Nat.eq_or_lt_of_le h4 with h | h
      · exact h
      · exact (instr_not_nop hin (hnb _ (by omega) h)).elim
    refine ⟨h1, h2, ?_⟩
    have hline : (b.skipNops v.listing v.breakpoints).2.1.line = some j := by rw [hr']
    rcases hr with rfl | ⟨j', g1, g2, -⟩
    · rw [hline, this]
    · rw [hline] at g1; cases g1
      have := hin.lt; omega

/-- What `Triggered` says is true. -/
theorem step_triggered {v w : Vm} (hv : Inv v) (h : v.step = some w) {e : Nat × Nat} (he : e ∈ w.triggered) :
    e.2 ∈ v.breakpoints ∧ ∃ b, w.branches[e.1]? = some b ∧ b.line = some e.2 := by
  have hs := step_spec hv
  rw [h] at hs
  generalize hr : some w = r at hs
  cases hs with
  | idle _ => cases hr; rw [start_triggered hv] at he; cases he
  | costErr _ _ => cases hr; rw [show v.start.triggered = [] from start_triggered hv] at he; cases he
  | poor _ _ _ => cases hr; rw [show v.start.triggered = [] from start_triggered hv] at he; cases he
  | hang => cases hr
  | fail ha _ _ hx =>
    cases hr
    obtain ⟨s, sc, hl, hm⟩ := exec_panic hx
    subst hm
    cases he
  | @done k b i o c m ha hc hle hx =>
    cases hr
    have hf := ha.finished hv hx
    have hok := exec_ok rfl hx
    have hlen := finished_length hv hf
    have hk : k < v.branches.length := (List.getElem?_eq_some_iff.1 ha.old).1
    have hk' : k < (v.finish k m).branches.length := by omega
    have hid : b.id = k := hv.ids k b ha.old
    rcases (hf.triggered e).1 he with h1 | h1 | ⟨b', h1, h2, h3, h4⟩
    · obtain ⟨d, t, ts, g1, g2, g3⟩ := (exec_trig hx).1 e h1
      have hd : d < m.forks.length := by
        have hs := executeOp_spec v o (v.mach b o c)
        rw [hx] at hs
        generalize hr : (XRes.ok () m) = r at hs
        have hlt := (List.getElem?_eq_some_iff.1 g2).1
        cases hs with
        | fork ts' m1 ht hc =>
          cases hr
          rw [g1] at ht; cases ht
          obtain ⟨s, sc, hl, rfl⟩ := hc
          simp only [Vm.mach, List.nil_append, List.length_map, forkBranches_length]
          exact hlt
        | straight m1 _ _ h3 hc => cases hr; rw [g1] at h3; cases h3
        | exit m1 h1 hc => cases h1 <;> cases g1
        | _ => first | (cases hr; done) | (rename_i ho; subst ho; cases g1; done) | (rename_i ho _; subst ho; cases g1; done) | (rename_i ho _ _; subst ho; cases g1; done)
      obtain ⟨t', ts', q1, q2, q3⟩ := hok.forks d _ (List.getElem?_eq_getElem hd)
      rw [g1] at q1; cases q1
      rw [g2] at q2; cases q2
      have hj : v.branches.length + d < (v.finish k m).branches.length := by omega
      have hget := List.getElem?_eq_getElem hj
      have hret : Retired v.listing (m.forks[d]) ((v.finish k m).branches[v.branches.length + d]) := by
        cases finished_origin hv hf hget with
        | other b0 _ h5 _ => have := (List.getElem?_eq_some_iff.1 h5).1; omega
        | self h5 _ => omega
        | fork x h5 h6 h7 =>
          rw [show v.branches.length + d - v.branches.length = d by omega, List.getElem?_eq_getElem hd] at h6
          cases h6; exact h7
      rw [q3] at hret
      obtain ⟨r1, r2, r3⟩ := skip_trig hv g3 hret
      refine ⟨r2, _, ?_, r3⟩
      rw [r1]
      dsimp only
      rw [hv.next]
      exact hget
    · have hget := List.getElem?_eq_getElem hk'
      cases finished_origin hv hf hget with
      | other b0 hne _ _ => exact absurd rfl hne
      | fork x h5 _ _ => omega
      | self _ hret =>
        obtain ⟨r1, r2, r3⟩ := skip_trig hv h1 hret
        refine ⟨r2, _, ?_, r3⟩
        rw [r1, hok.id]
        show (v.finish k m).branches[b.id]? = _
        rw [hid]
        exact hget
    · have : b'.id = k := (inv_step hv h).ids k b' h1
      exact ⟨h3, b', by rw [h2, this]; exact h1, h4⟩

/-- A branch that came to a line with a breakpoint is reported. -/
theorem step_reports {v w : Vm} (hv : Inv v) (h : v.step = some w) (he : w.error = none) {j x : Nat} {b' : VmBranch}
    (hb : w.branches[j]? = some b') (hx : b'.line = some x) (hbp : x ∈ v.breakpoints) :
    (j, x) ∈ w.triggered ∨ ∃ b, v.branches[j]? = some b ∧ b.line = some x ∧ b.trace = b'.trace := by
  have hid : b'.id = j := (inv_step hv h).ids j b' hb
  cases step_did hv h he hb with
  | stayed b h1 h2 h3 =>
    right
    refine ⟨b, h1, ?_, (stayed_same h2).2.1.symm⟩
    rcases h3 with h3 | h3
    · rw [← h3]; exact hx
    · rw [h3] at hx; cases hx
  | acted b i o c m _ _ _ _ _ ht => left; have := ht x hx hbp; rwa [hid] at this
  | forked k b i o c m ts t y hle ha hcost _ hx' hts ht hxx hr hsub =>
    left
    have hyid : y.id = j := by rw [hxx]
    cases hlab : findLabel v.listing t with
    | none =>
      have : y.line = none := by rw [hxx]; exact hlab
      rw [line_skip_none this hr] at hx; cases hx
    | some z =>
      have hyl : y.line = some z := by rw [hxx]; exact hlab
      obtain ⟨q, hzq, hr', hnb, -, -, -, u, hu, hu1, hu2⟩ := (skipNops_some v.listing v.breakpoints y z hyl).land
      have hline : (y.skipNops v.listing v.breakpoints).2.1.line = some q := by rw [hr']
      have hq : q = x := by
        rcases hr.line with h1 | h1
        · rw [h1, hline] at hx; cases hx; rfl
        · rw [h1] at hx; cases hx
      subst hq
      have hne : z ≠ q := by
        rintro rfl
        refine instr_not_nop (hv.bps _ hbp) ⟨.label t, (findLabel_some hlab).1, rfl⟩
      have := hu2 (by omega) hbp
      rw [hyid] at this
      exact hsub (by rw [hu, List.nil_append]; exact this)

end Teal
