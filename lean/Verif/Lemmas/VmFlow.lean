import Verif.Lemmas.VmRun

/-!
# Control flow of the machine
-/

namespace Teal
open Teal.Spec

/-! ## Labels -/

theorem findLabelFrom_spec (n : Bytes) : ∀ (os : List Op) (i : Nat),
    (∀ j, findLabelFrom n i os = some j → i ≤ j ∧ DefinedAt os n (j - i) ∧
      ∀ j', DefinedAt os n j' → i + j' ≤ j) ∧
    (findLabelFrom n i os = none → ∀ j, ¬ DefinedAt os n j) := by
  intro os
  induction os with
  | nil =>
    intro i
    refine ⟨fun j h => by simp [findLabelFrom] at h, fun _ j h => ?_⟩
    simp [DefinedAt, At] at h
  | cons o os ih =>
    intro i
    obtain ⟨h1, h2⟩ := ih (i + 1)
    unfold findLabelFrom
    cases hf : findLabelFrom n (i + 1) os with
    | some j =>
      obtain ⟨g1, g2, g3⟩ := h1 j hf
      refine ⟨?_, fun h => by cases h⟩
      intro j' hj
      simp only [Option.some.injEq] at hj; subst hj
      refine ⟨by omega, ?_, ?_⟩
      · show (o :: os)[j - i]? = _
        rw [show j - i = (j - (i + 1)) + 1 by omega, List.getElem?_cons_succ]
        exact g2
      · intro j' hj'
        cases j' with
        | zero => omega
        | succ j' =>
          have := g3 j' (by unfold DefinedAt At at hj' ⊢; simpa using hj')
          omega
    | none =>
      have hno := h2 hf
      by_cases ho : o = .label n
      · subst ho
        simp only [if_true]
        refine ⟨?_, fun h => by cases h⟩
        intro j hj
        simp only [Option.some.injEq] at hj; subst hj
        refine ⟨Nat.le_refl _, by simp [DefinedAt, At], ?_⟩
        intro j' hj'
        cases j' with
        | zero => omega
        | succ j' => exact (hno j' (by unfold DefinedAt At at hj' ⊢; simpa using hj')).elim
      · simp only [ho, if_false]
        refine ⟨fun j h => by simp at h, fun _ j hj => ?_⟩
        cases j with
        | zero => simp [DefinedAt, At] at hj; exact ho hj
        | succ j => exact hno j (by unfold DefinedAt At at hj ⊢; simpa using hj)

theorem findLabel_some {l : List Op} {n : Bytes} {j : Nat} (h : findLabel l n = some j) :
    LastDefined l n j := by
  obtain ⟨-, h2, h3⟩ := (findLabelFrom_spec n l 0).1 j h
  exact ⟨h2, fun j' hj' => by have := h3 j' hj'; omega⟩

theorem findLabel_none {l : List Op} {n : Bytes} (h : findLabel l n = none) : ∀ j, ¬ DefinedAt l n j :=
  (findLabelFrom_spec n l 0).2 h

/-! ## Landing -/

theorem nop_iff {o : Op} : o.isNop = false ↔ ¬ NoOp o := by
  rw [← isNop_iff]; simp

theorem instrAt_iff {l : List Op} {i : Nat} : InstrAt l i ↔ ∃ o, At l i o ∧ ¬ NoOp o := by
  unfold InstrAt At; simp only [nop_iff]

theorem noFall_nop {o : Op} (h : NoOp o) : ¬ NoFallThrough o := by
  rintro (⟨_, h'⟩ | _ | _ | _)
  · cases h' <;> cases h
  all_goals cases h

theorem nopsBetween_none {l : List Op} {i j : Nat} (h : NopsBetween l i j) (hj : l.length ≤ j) :
    NoneFrom l i := by
  intro y o hy ho
  have hlt : y < l.length := (List.getElem?_eq_some_iff.1 ho).1
  obtain ⟨o', h1, h2⟩ := h y hy (by omega)
  unfold At at ho
  rw [ho] at h1; cases h1
  exact (isNop_iff o).1 h2

/-- Where a branch is after `skipNops`, and after it may have been retired. -/
theorem reaches_skip {l : List Op} {bps : List Nat} {b b' : VmBranch} {i : Nat} (h : b.line = some i)
    (hr : Retired l (b.skipNops l bps).2.1 b') : Reaches l i b'.line := by
  obtain ⟨j, hij, he, hnb, ht, hf, -⟩ := (skipNops_some l bps b i h).land
  have hline : (b.skipNops l bps).2.1.line = some j := by rw [he]
  cases hc : (b.skipNops l bps).1
  · have hlj := hf hc
    refine .inr ⟨nopsBetween_none hnb hlj, fun x hx => ?_⟩
    rcases hr with rfl | ⟨-, -, -, rfl⟩
    · rw [hline] at hx; cases hx; exact hlj
    · cases hx
  · have hj := ht hc
    refine .inl ⟨j, ?_, hij, instrAt_iff.1 hj, ?_⟩
    · rcases hr with rfl | ⟨j', h1, h2, -⟩
      · exact hline
      · rw [hline] at h1; cases h1
        have := hj.lt; omega
    · intro y h1 h2
      obtain ⟨o, ho, hn⟩ := hnb y h1 h2
      exact ⟨o, ho, (isNop_iff o).1 hn⟩

theorem line_skip_none {l : List Op} {bps : List Nat} {b b' : VmBranch} (h : b.line = none)
    (hr : Retired l (b.skipNops l bps).2.1 b') : b'.line = none := by
  rw [skipNops_none l bps b h] at hr
  rcases hr.line with h' | h'
  · rw [h', h]
  · exact h'

theorem forks_iff {o : Op} {ts : List Bytes} : Forks o ts ↔ o.forksTo? = some ts := by
  constructor
  · intro h; cases h <;> rfl
  · intro h
    unfold Op.forksTo? at h
    split at h <;> first | (cases h; done) | (cases h; constructor)

/-! ## One instruction -/

/-- The line after a call. -/
def VmFrame.back (f : VmFrame) : Nat := match f.ret with | some i => i + 1 | none => 0

/-- The return addresses of a branch. -/
def VmBranch.backs (b : VmBranch) : List Nat := b.frames.map VmFrame.back

/-- Where an executed instruction on line `i` leaves its branch. -/
inductive Goes (l : List Op) (o : Op) (i : Nat) (b b' : VmBranch) : Prop
  | next : ¬ NoFallThrough o → b'.line = some (i + 1) → b'.backs = b.backs →
      b'.frames.tail = b.frames.tail → b'.frames.length = b.frames.length → Goes l o i b b'
  | halt : Halts o → b'.line = none → b'.frames = b.frames → Goes l o i b b'
  | lost (t : Bytes) : (o = .branch .b t ∨ o = .branch .callsub t) → (∀ j, ¬ DefinedAt l t j) →
      b'.line = none → (o = .branch .b t → b'.frames = b.frames) →
      (o = .branch .callsub t → ∃ f, b'.frames = f :: b.frames ∧ f.ret = some i) → Goes l o i b b'
  | jump (t : Bytes) (j : Nat) : o = .branch .b t → LastDefined l t j → b'.line = some j →
      b'.frames = b.frames → Goes l o i b b'
  | call (t : Bytes) (j : Nat) (f : VmFrame) : o = .branch .callsub t → LastDefined l t j →
      b'.line = some j → b'.frames = f :: b.frames → f.ret = some i → Goes l o i b b'
  | ret (f : VmFrame) (fs : List VmFrame) : o = .plain .retsub → b.frames = f :: fs →
      b'.line = some f.back → b'.frames = fs → Goes l o i b b'
  | retNone : o = .plain .retsub → b.frames = [] → b'.line = some (i + 1) → b'.frames = [] →
      Goes l o i b b'

theorem exec_goes {v : Vm} {o : Op} {b : VmBranch} {i : Nat} {c : Int} {m : Mach}
    (hi : b.line = some i) (h : v.executeOp o (v.mach b o c) = .ok () m) :
    Goes v.listing o i b m.br := by
  have hs := executeOp_spec v o (v.mach b o c)
  rw [h] at hs
  generalize hr : (XRes.ok () m) = r at hs
  cases hs with
  | hang n _ _ => cases hr
  | panic e m' _ => cases hr
  | straight m1 _ h2 _ hc =>
    cases hr
    obtain ⟨s, sc, hl, rfl⟩ := hc
    refine .next h2 ?_ rfl rfl rfl
    simp [VmBranch.incLine, Vm.mach, hi]
  | proto a r f fs ho hf =>
    cases hr
    have hf' : b.frames = f :: fs := hf
    refine .next ?_ ?_ ?_ ?_ ?_
    · rw [ho]; rintro (⟨_, h'⟩ | _ | _ | _); cases h'
    · simp [VmBranch.incLine, Vm.mach, hi]
    · simp [VmBranch.backs, VmBranch.incLine, hf', VmFrame.back]
    · simp [VmBranch.incLine, hf']
    · simp [VmBranch.incLine, hf']
  | exit m1 h1 hc =>
    cases hr
    obtain ⟨s, sc, hl, rfl⟩ := hc
    exact .halt h1 rfl rfl
  | jump t ho =>
    cases hr
    cases hf : findLabel v.listing t with
    | some j => exact .jump t j ho (findLabel_some hf) rfl rfl
    | none => exact .lost t (.inl ho) (findLabel_none hf) rfl (fun _ => rfl) (fun h' => by rw [ho] at h'; cases h')
  | call t ho =>
    cases hr
    cases hf : findLabel v.listing t with
    | some j => exact .call t j _ ho (findLabel_some hf) rfl rfl hi
    | none =>
      exact .lost t (.inr ho) (findLabel_none hf) rfl (fun h' => by rw [ho] at h'; cases h')
        (fun _ => ⟨_, rfl, hi⟩)
  | ret f fs m1 ho hf hc =>
    cases hr
    obtain ⟨s, sc, hl, rfl⟩ := hc
    exact .ret f fs ho hf rfl rfl
  | retNone ho hf =>
    cases hr
    have hf' : b.frames = [] := hf
    refine .retNone ho hf' ?_ ?_
    · simp [VmBranch.incLine, Vm.mach, hi]
    · exact hf
  | fork ts m1 ht hc =>
    cases hr
    obtain ⟨s, sc, hl, rfl⟩ := hc
    refine .next ?_ ?_ rfl rfl rfl
    · have := forks_iff.2 ht
      rintro (⟨_, h'⟩ | _ | _ | _)
      · cases h' <;> cases this
      all_goals cases this
    · simp [VmBranch.incLine, Vm.mach, hi]

/-! ## Steps in full -/

/-- What a step without an error did to the branch at position `j`. -/
inductive Did (v w : Vm) (j : Nat) (b' : VmBranch) : Prop
  /-- nothing, or it was found to be at the end or out of budget -/
  | stayed (b : VmBranch) : v.branches[j]? = some b →
      b' = { b with line := b'.line, name := b'.name } → (b'.line = b.line ∨ b'.line = none) →
      Did v w j b'
  /-- it executed an instruction -/
  | acted (b : VmBranch) (i : Nat) (o : Op) (c : Int) (m : Mach) : Acts v j b i o →
      CostIs v.version b o c → c ≤ b.budget → v.executeOp o (v.mach b o c) = .ok () m →
      Retired v.listing (m.br.skipNops v.listing v.breakpoints).2.1 b' →
      (∀ x, b'.line = some x → x ∈ v.breakpoints → (b'.id, x) ∈ w.triggered) →
      Did v w j b'
  /-- it was created -/
  | forked (k : Nat) (b : VmBranch) (i : Nat) (o : Op) (c : Int) (m : Mach) (ts : List Bytes) (t : Bytes) (x : VmBranch) :
      v.branches.length ≤ j → Acts v k b i o → CostIs v.version b o c → c ≤ b.budget →
      v.executeOp o (v.mach b o c) = .ok () m →
      o.forksTo? = some ts → ts[j - v.branches.length]? = some t →
      x = { id := j, line := findLabel v.listing t, stack := m.br.stack, frames := [], budget := b.budget - c, name := t, trace := b.trace ++ [o] : VmBranch } →
      Retired v.listing (x.skipNops v.listing v.breakpoints).2.1 b' →
      (x.skipNops v.listing v.breakpoints).2.2 ⊆ w.triggered → Did v w j b'

theorem exec_trig {v : Vm} {o : Op} {b : VmBranch} {c : Int} {m : Mach}
    (h : v.executeOp o (v.mach b o c) = .ok () m) :
    (∀ e, e ∈ m.trig → ∃ (d : Nat) (t : Bytes) (ts : List Bytes), o.forksTo? = some ts ∧ ts[d]? = some t ∧
      e ∈ (({ id := v.nextId + d, line := findLabel v.listing t, stack := m.br.stack, frames := [], budget := b.budget - c, name := t, trace := b.trace ++ [o] : VmBranch }.skipNops
           v.listing v.breakpoints).2.2)) ∧
    (∀ (d : Nat) (t : Bytes) (ts : List Bytes), o.forksTo? = some ts → ts[d]? = some t →
      ({ id := v.nextId + d, line := findLabel v.listing t, stack := m.br.stack, frames := [], budget := b.budget - c, name := t, trace := b.trace ++ [o] : VmBranch }.skipNops
           v.listing v.breakpoints).2.2 ⊆ m.trig) := by
  have hs := executeOp_spec v o (v.mach b o c)
  rw [h] at hs
  generalize hr : (XRes.ok () m) = r at hs
  have nofork : m.trig = [] → o.forksTo? = none → (∀ e, e ∈ m.trig → ∃ (d : Nat) (t : Bytes) (ts : List Bytes), o.forksTo? = some ts ∧ ts[d]? = some t ∧
      e ∈ (({ id := v.nextId + d, line := findLabel v.listing t, stack := m.br.stack, frames := [], budget := b.budget - c, name := t, trace := b.trace ++ [o] : VmBranch }.skipNops
           v.listing v.breakpoints).2.2)) ∧
      (∀ (d : Nat) (t : Bytes) (ts : List Bytes), o.forksTo? = some ts → ts[d]? = some t →
      ({ id := v.nextId + d, line := findLabel v.listing t, stack := m.br.stack, frames := [], budget := b.budget - c, name := t, trace := b.trace ++ [o] : VmBranch }.skipNops
           v.listing v.breakpoints).2.2 ⊆ m.trig) := by
    intro h1 h2
    rw [h1, h2]
    exact ⟨fun e he => (by cases he), fun d t ts h => (by cases h)⟩
  cases hs with
  | hang n _ _ => cases hr
  | panic e m' _ => cases hr
  | straight m1 _ _ h3 hc =>
    cases hr
    obtain ⟨s, sc, hl, rfl⟩ := hc
    exact nofork rfl h3
  | proto a r f fs ho _ => cases hr; exact nofork rfl (by rw [ho]; rfl)
  | exit m1 h1 hc =>
    cases hr
    obtain ⟨s, sc, hl, rfl⟩ := hc
    exact nofork rfl (by cases h1 <;> rfl)
  | jump t ho => cases hr; exact nofork rfl (by rw [ho]; rfl)
  | call t ho => cases hr; exact nofork rfl (by rw [ho]; rfl)
  | ret f fs m1 ho _ hc =>
    cases hr
    obtain ⟨s, sc, hl, rfl⟩ := hc
    exact nofork rfl (by rw [ho]; rfl)
  | retNone ho _ => cases hr; exact nofork rfl (by rw [ho]; rfl)
  | fork ts m1 ht hc =>
    cases hr
    obtain ⟨s, sc, hl, rfl⟩ := hc
    constructor
    · intro e he
      simp only [Vm.mach, List.nil_append, List.mem_flatMap] at he
      obtain ⟨r, hr, he⟩ := he
      obtain ⟨d, hd⟩ := List.mem_iff_getElem?.1 hr
      obtain ⟨t, h1, h2⟩ := forkBranches_get hd
      refine ⟨d, t, ts, ht, h1, ?_⟩
      rw [h2] at he
      exact he
    · intro d t ts' h1 h2 e he
      rw [ht] at h1; cases h1
      simp only [Vm.mach, List.nil_append, List.mem_flatMap]
      have hlen : d < (forkBranches v.listing v.breakpoints
          ({ b with budget := b.budget - c, trace := b.trace ++ [o], stack := s } : VmBranch) v.nextId ts).length := by
        rw [forkBranches_length]; exact (List.getElem?_eq_some_iff.1 h2).1
      have hget := List.getElem?_eq_getElem hlen
      obtain ⟨t', g1, g2⟩ := forkBranches_get hget
      rw [h2] at g1; cases g1
      refine ⟨_, List.mem_of_getElem? hget, ?_⟩
      rw [g2]
      exact he

theorem step_did {v w : Vm} (hv : Inv v) (h : v.step = some w) (he : w.error = none) {j : Nat}
    {b' : VmBranch} (hb : w.branches[j]? = some b') : Did v w j b' := by
  have hs := step_spec hv
  rw [h] at hs
  generalize hr : some w = r at hs
  have ofStart : ∀ {x}, v.start.branches[j]? = some x → Did v w j x := by
    intro x hx
    obtain ⟨b, h1, h2⟩ := start_origin hv hx
    exact .stayed b h1 h2.same h2.line
  cases hs with
  | idle _ => cases hr; exact ofStart hb
  | costErr _ _ => cases hr; cases he
  | @poor k b i o c ha _ _ =>
    cases hr
    rcases getElem?_set_cases hb with ⟨rfl, rfl⟩ | ⟨-, h⟩
    · exact .stayed b ha.old rfl (.inr rfl)
    · exact ofStart h
  | hang => cases hr
  | fail _ _ _ _ => cases hr; cases he
  | @done k b i o c m ha hc hle hx =>
    cases hr
    have hf := ha.finished hv hx
    have hok := exec_ok rfl hx
    cases finished_origin hv hf hb with
    | other b0 hne h1 h2 => exact .stayed b0 h1 h2.same h2.line
    | self h1 h2 =>
      subst h1
      refine .acted b i o c m ha hc hle hx h2 fun x h3 h4 => ?_
      exact (hf.triggered _).2 (.inr (.inr ⟨b', hb, rfl, h4, h3⟩))
    | fork y h1 h2 h3 =>
      obtain ⟨t, ts, hts, ht, hy⟩ := hok.forks _ _ h2
      have hid : v.nextId + (j - v.branches.length) = j := by rw [hv.next]; omega
      refine .forked k b i o c m ts t _ h1 ha hc hle hx hts ht rfl ?_ ?_
      · rw [hy] at h3
        dsimp only [Vm.mach] at h3
        rw [hid] at h3
        exact h3
      · intro e he'
        refine (hf.triggered e).2 (.inl ((exec_trig hx).2 _ t ts hts ht ?_))
        rw [hid]; exact he'

theorem start_length {v : Vm} (hv : Inv v) : v.start.branches.length = v.branches.length :=
  (start_retired hv).1

theorem finished_length {v w : Vm} (hv : Inv v) {k : Nat} {m : Mach} (h : Finished v k m w) :
    w.branches.length = v.branches.length + m.forks.length := by
  rw [h.branches.1, List.length_append, List.length_set, start_length hv]

/-- Branches are never removed. -/
theorem step_length {v w : Vm} (hv : Inv v) (h : v.step = some w) : v.branches.length ≤ w.branches.length := by
  have hs := step_spec hv
  rw [h] at hs
  generalize hr : some w = r at hs
  cases hs with
  | idle _ => cases hr; rw [start_length hv]; exact Nat.le_refl _
  | costErr _ _ => cases hr; show _ ≤ v.start.branches.length; rw [start_length hv]; exact Nat.le_refl _
  | poor _ _ _ => cases hr; show _ ≤ (v.start.branches.set _ _).length; rw [List.length_set, start_length hv]; exact Nat.le_refl _
  | hang => cases hr
  | fail _ _ _ _ =>
    cases hr
    show _ ≤ (v.start.branches.set _ _ ++ _).length
    rw [List.length_append, List.length_set, start_length hv]; omega
  | done ha _ _ hx => cases hr; rw [finished_length hv (ha.finished hv hx)]; omega

theorem step_grows {v w : Vm} (hv : Inv v) (h : v.step = some w) {j : Nat} {b : VmBranch}
    (hb : v.branches[j]? = some b) : ∃ b', w.branches[j]? = some b' := by
  have h1 := (List.getElem?_eq_some_iff.1 hb).1
  have h2 := step_length hv h
  exact ⟨_, List.getElem?_eq_getElem (by omega)⟩

theorem CostIs.unique {version : Nat} {b : VmBranch} {o : Op} {c c' : Int} (h : CostIs version b o c)
    (h' : CostIs version b o c') : c = c' := by
  rcases h with ⟨h1, h2⟩ | h1 <;> rcases h' with ⟨h3, h4⟩ | h3 <;> rw [h1] at h3
  · rw [h2, h4]
  · cases h3
  · cases h3
  · cases h3; rfl

end Teal
