import Verif.Lemmas.VmSkip

/-!
# What one step of the machine changes
-/

namespace Teal

theorem lengths_le_one (s : VmSrc) : s.lengths.length ≤ 1 := by
  induction s <;> simp_all [VmSrc.lengths]

/-- The cost of an instruction, with the default. -/
def CostIs (version : Nat) (b : VmBranch) (o : Op) (c : Int) : Prop :=
  (o.costs version b = .ok [] ∧ c = 1) ∨ o.costs version b = .ok [c]

theorem base64Cost_pos (l : Nat) : 1 ≤ base64Cost l := by
  unfold base64Cost; split <;> omega

theorem jsonCost_pos (l : Nat) : 1 ≤ jsonCost l := by
  unfold jsonCost; split <;> omega

theorem lengthCosts_cases {f : Nat → Int} (hf : ∀ l, 1 ≤ f l) {b : VmBranch} {cs : List Int}
    (h : lengthCosts f b = .ok cs) : cs = [] ∨ ∃ c, cs = [c] ∧ 1 ≤ c := by
  unfold lengthCosts at h
  split at h
  · cases h
  · rename_i v _ _
    cases h
    have := lengths_le_one v.src
    match hl : v.src.lengths with
    | [] => exact .inl rfl
    | [x] => exact .inr ⟨f x, rfl, hf x⟩
    | x :: y :: r => rw [hl] at this; simp at this

theorem ecCosts_cases {x y : Int} (hx : 1 ≤ x) (hy : 1 ≤ y) {g : Nat} {cs : List Int}
    (h : ecCosts x y g = .ok cs) : cs = [] ∨ ∃ c, cs = [c] ∧ 1 ≤ c := by
  unfold ecCosts at h
  split at h
  · cases h; exact .inr ⟨_, rfl, hx⟩
  · split at h
    · cases h; exact .inr ⟨_, rfl, hy⟩
    · cases h

theorem ecdsaCosts_cases {tbl : List Int} (ht : ∀ c ∈ tbl, 1 ≤ c) {g : Nat} {cs : List Int}
    (h : ecdsaCosts tbl g = .ok cs) : cs = [] ∨ ∃ c, cs = [c] ∧ 1 ≤ c := by
  unfold ecdsaCosts at h
  split at h
  · rename_i c hc
    cases h
    exact .inr ⟨c, rfl, ht c (List.mem_of_getElem? hc)⟩
  · cases h

theorem plain_costs_cases (version : Nat) (k : Plain) :
    k.costs version = [] ∨ ∃ c, k.costs version = [c] ∧ 1 ≤ c := by
  by_cases hv : version = 1 <;> cases k <;> simp [Plain.costs, hv]

theorem costs_cases {version : Nat} {b : VmBranch} {o : Op} {cs : List Int}
    (h : o.costs version b = .ok cs) : cs = [] ∨ ∃ c, cs = [c] ∧ 1 ≤ c := by
  unfold Op.costs at h
  split at h
  · cases h; exact plain_costs_cases version _
  · exact ecdsaCosts_cases (by decide) h
  · exact ecdsaCosts_cases (by decide) h
  · cases h; exact .inr ⟨_, rfl, by decide⟩
  · exact lengthCosts_cases base64Cost_pos h
  · exact lengthCosts_cases jsonCost_pos h
  · cases h; exact .inr ⟨_, rfl, by decide⟩
  · exact ecCosts_cases (by decide) (by decide) h
  · exact ecCosts_cases (by decide) (by decide) h
  · exact ecCosts_cases (by decide) (by decide) h
  · exact ecCosts_cases (by decide) (by decide) h
  · exact ecCosts_cases (by decide) (by decide) h
  · exact ecCosts_cases (by decide) (by decide) h
  · cases h; exact .inl rfl

theorem CostIs.pos {version : Nat} {b : VmBranch} {o : Op} {c : Int} (h : CostIs version b o c) :
    1 ≤ c := by
  rcases h with ⟨-, rfl⟩ | h
  · decide
  · rcases costs_cases h with h | ⟨c', h, hc⟩
    · cases h
    · cases h; exact hc

/-- What every state of the machine satisfies. -/
structure Inv (v : Vm) : Prop where
  ids : ∀ (i : Nat) (b : VmBranch), v.branches[i]? = some b → b.id = i
  next : v.nextId = v.branches.length
  current : v.current < v.branches.length
  sel : ∀ k, v.branch = some k → k = v.current
  settled : ∀ b ∈ v.branches, Settled v.listing b
  scratch : v.scratch.length = 256
  bps : ∀ x ∈ v.breakpoints, InstrAt v.listing x

/-- The state in which `Step` looks for the instruction to execute. -/
def Vm.start (v : Vm) : Vm := Vm.skipNops { v with error := none, triggered := [] }

theorem start_skip {v : Vm} (hv : Inv v) : Skip { v with error := none, triggered := [] } v.start ∧
    (v.start.branch = none → ∀ b ∈ v.start.branches, b.line = none) :=
  skipNops_spec { v with error := none, triggered := [] } hv.current hv.settled

/-- `Step` executes `o`, on line `i`, on the branch `b` at position `k`. -/
structure Acts (v : Vm) (k : Nat) (b : VmBranch) (i : Nat) (o : Op) : Prop where
  sel : v.start.branch = some k
  cur : k = v.start.current
  old : v.branches[k]? = some b
  get : v.start.branches[k]? = some b
  line : b.line = some i
  op : v.listing[i]? = some o
  instr : o.isNop = false

/-- The state in which `Execute` is called. -/
def Vm.mach (v : Vm) (b : VmBranch) (o : Op) (c : Int) : Mach :=
  { br := { b with budget := b.budget - c, trace := b.trace ++ [o] }
    scratch := v.scratch, nextId := v.nextId, forks := [], trig := [] }

/-- The state after a successful `Execute`. -/
def Vm.finish (v : Vm) (k : Nat) (m : Mach) : Vm :=
  (((v.start.writeBack k m).skipNopsOf k).skipNops).updateBreakpoints k

/-- The ways `Step` can end. -/
inductive StepSpec (v : Vm) : Option Vm → Prop
  | idle : v.start.branch = none → StepSpec v (some v.start)
  | costErr {k b i o e} : Acts v k b i o → o.costs v.version b = .error e →
      StepSpec v (some { v.start with error := some e })
  | poor {k b i o c} : Acts v k b i o → CostIs v.version b o c → b.budget < c →
      StepSpec v (some { v.start with branches := v.start.branches.set k b.exit })
  | hang {k b i o c} : Acts v k b i o → CostIs v.version b o c → c ≤ b.budget →
      v.executeOp o (v.mach b o c) = .hang → StepSpec v none
  | fail {k b i o c e m} : Acts v k b i o → CostIs v.version b o c → c ≤ b.budget →
      v.executeOp o (v.mach b o c) = .panic e m →
      StepSpec v (some { v.start.writeBack k m with error := some e })
  | done {k b i o c m} : Acts v k b i o → CostIs v.version b o c → c ≤ b.budget →
      v.executeOp o (v.mach b o c) = .ok () m → StepSpec v (some (v.finish k m))

theorem start_listing {v : Vm} (hv : Inv v) : v.start.listing = v.listing := by
  rw [(start_skip hv).1.eq]
theorem start_version {v : Vm} (hv : Inv v) : v.start.version = v.version := by
  rw [(start_skip hv).1.eq]
theorem start_breakpoints {v : Vm} (hv : Inv v) : v.start.breakpoints = v.breakpoints := by
  rw [(start_skip hv).1.eq]
theorem start_scratch {v : Vm} (hv : Inv v) : v.start.scratch = v.scratch := by
  rw [(start_skip hv).1.eq]
theorem start_nextId {v : Vm} (hv : Inv v) : v.start.nextId = v.nextId := by
  rw [(start_skip hv).1.eq]
theorem start_triggered {v : Vm} (hv : Inv v) : v.start.triggered = [] := by
  rw [(start_skip hv).1.eq]
theorem start_error {v : Vm} (hv : Inv v) : v.start.error = none := by
  rw [(start_skip hv).1.eq]
theorem start_retired {v : Vm} (hv : Inv v) : AllRetired v.listing v.branches v.start.branches :=
  (start_skip hv).1.retired

theorem executeOp_congr {v w : Vm} (h1 : v.listing = w.listing) (h2 : v.breakpoints = w.breakpoints)
    (o : Op) : v.executeOp o = w.executeOp o := by
  unfold Vm.executeOp; rw [h1, h2]

theorem stepCosts_one {v : Vm} (hv : Inv v) {k : Nat} {b : VmBranch} {i : Nat} {o : Op} {c : Int}
    (ha : Acts v k b i o) (hc : CostIs v.version b o c) :
    StepSpec v (v.start.stepCosts k o [c]) := by
  unfold Vm.stepCosts
  rw [ha.get]
  dsimp only
  unfold Vm.stepCost
  by_cases hb : b.budget ≥ c
  · rw [if_pos hb, executeOp_congr (start_listing hv) (start_breakpoints hv), start_scratch hv,
      start_nextId hv, start_triggered hv]
    have hm : v.executeOp o (v.mach b o c) = v.executeOp o
      { br := { b with budget := b.budget - c, trace := b.trace ++ [o] }
        scratch := v.scratch, nextId := v.nextId, forks := [], trig := [] } := rfl
    rw [← hm]
    cases hr : v.executeOp o (v.mach b o c) with
    | ok a m => exact .done ha hc hb hr
    | panic e m => exact .fail ha hc hb hr
    | hang => exact .hang ha hc hb hr
  · rw [if_neg hb]
    exact .poor ha hc (by omega)

theorem step_spec {v : Vm} (hv : Inv v) : StepSpec v v.step := by
  have hsk := (start_skip hv).1
  show StepSpec v v.start.stepAt
  unfold Vm.stepAt
  cases hk : v.start.branch with
  | none => exact .idle hk
  | some k =>
    obtain ⟨hcur, b, i, h1, h2, h3, o, h4, h5⟩ := hsk.sel k hk
    have ha : Acts v k b i o := ⟨hk, hcur, h1, h2, h3, h4, h5⟩
    dsimp only
    rw [h2]
    dsimp only
    rw [h3, start_listing hv]
    dsimp only [Option.bind]
    rw [ha.op]
    dsimp only
    rw [start_version hv]
    cases hc : o.costs v.version b with
    | error e =>
      have h := StepSpec.costErr (e := e) ha hc
      simp only [hk, start_listing hv, start_version hv] at h ⊢
      exact h
    | ok cs =>
      dsimp only
      rcases costs_cases hc with rfl | ⟨c, rfl, -⟩
      · exact stepCosts_one hv ha (.inl ⟨hc, rfl⟩)
      · exact stepCosts_one hv ha (.inr hc)

/-- The outcome of a successful instruction: the executing branch, moved to the next
instruction, and the new branches. -/
structure Finished (v : Vm) (k : Nat) (m : Mach) (w : Vm) : Prop where
  listing : w.listing = v.listing
  version : w.version = v.version
  breakpoints : w.breakpoints = v.breakpoints
  error : w.error = none
  nextId : w.nextId = m.nextId
  scratch : w.scratch = m.scratch
  branches : AllRetired v.listing
    (v.start.branches.set k (m.br.skipNops v.listing v.breakpoints).2.1 ++ m.forks) w.branches
  current : w.current < w.branches.length
  sel : ∀ j, w.branch = some j → j = w.current ∧ ∃ (b : VmBranch) (i : Nat),
    w.branches[j]? = some b ∧ b.line = some i ∧ InstrAt v.listing i
  none : w.branch = none → ∀ b ∈ w.branches, b.line = none
  triggered : ∀ e, e ∈ w.triggered ↔
    e ∈ m.trig ∨ e ∈ (m.br.skipNops v.listing v.breakpoints).2.2 ∨
    ∃ b, w.branches[k]? = some b ∧ e.1 = b.id ∧ e.2 ∈ v.breakpoints ∧ b.line = some e.2

theorem finish_spec {v : Vm} (hv : Inv v) {k : Nat} {b : VmBranch} (hk : v.start.branches[k]? = some b)
    (m : Mach) (hforks : ∀ x ∈ m.forks, Settled v.listing x) : Finished v k m (v.finish k m) := by
  have hsk := (start_skip hv).1
  have hk1 : k < v.start.branches.length := (List.getElem?_eq_some_iff.1 hk).1
  have hset : ∀ x ∈ v.start.branches, Settled v.listing x := by
    intro x hx
    obtain ⟨i, hi, rfl⟩ := List.getElem_of_mem hx
    have hi' : i < v.branches.length := by rw [← (start_retired hv).1]; exact hi
    rcases (start_retired hv).2 i _ _ (List.getElem?_eq_getElem hi') (List.getElem?_eq_getElem hi) with h | ⟨-, -, -, h⟩
    · rw [h]; exact hv.settled _ (List.getElem_mem hi')
    · rw [h]; intro j hj; cases hj
  -- after cb.skipNops()
  obtain ⟨u, hu⟩ : ∃ u, u = (v.start.writeBack k m).skipNopsOf k := ⟨_, rfl⟩
  have hget : (v.start.writeBack k m).branches[k]? = some m.br := by
    show (v.start.branches.set k m.br ++ m.forks)[k]? = _
    rw [List.getElem?_append_left (by rw [List.length_set]; exact hk1), List.getElem?_set_self hk1]
  have hu' : u = { v.start with
      branches := v.start.branches.set k (m.br.skipNops v.listing v.breakpoints).2.1 ++ m.forks
      scratch := m.scratch, nextId := m.nextId
      triggered := m.trig ++ (m.br.skipNops v.listing v.breakpoints).2.2 } := by
    rw [hu]
    unfold Vm.skipNopsOf
    rw [hget]
    dsimp only
    rw [show (v.start.writeBack k m).listing = v.listing from start_listing hv,
      show (v.start.writeBack k m).breakpoints = v.breakpoints from start_breakpoints hv]
    unfold Vm.writeBack
    dsimp only
    rw [List.set_append_left _ _ (by rw [List.length_set]; exact hk1), List.set_set]
    simp only [start_listing hv, start_breakpoints hv]
  have hul : u.listing = v.listing := by rw [hu']; exact start_listing hv
  have hub : u.breakpoints = v.breakpoints := by rw [hu']; exact start_breakpoints hv
  have hus : ∀ x ∈ u.branches, Settled u.listing x := by
    rw [hul, hu']
    intro x hx
    rcases List.mem_append.1 hx with h | h
    · rcases List.mem_or_eq_of_mem_set h with h | rfl
      · exact hset x h
      · exact skipNops_settled _ _ _
    · exact hforks x h
  have huc : u.current < u.branches.length := by
    rw [hu']
    have := hsk.current
    simp only [List.length_append, List.length_set]
    omega
  obtain ⟨hs, hnone⟩ := skipNops_spec u huc hus
  have hfin : v.finish k m = u.skipNops.updateBreakpoints k := by rw [hu]; rfl
  have hk2 : k < u.skipNops.branches.length := by
    rw [hs.retired.1, hu']; simp only [List.length_append, List.length_set]; omega
  have hk3 := List.getElem?_eq_getElem hk2
  have hub2 : u.skipNops.breakpoints = v.breakpoints := by rw [hs.eq]; exact hub
  have htr : u.skipNops.triggered = u.triggered := by rw [hs.eq]
  have hfin' : v.finish k m = { u.skipNops with
      triggered := u.triggered ++ bpHits v.breakpoints u.skipNops.branches[k] } := by
    rw [hfin]
    unfold Vm.updateBreakpoints
    rw [hk3]
    dsimp only
    rw [hub2, htr]
  have hbr : (v.finish k m).branches = u.skipNops.branches := by rw [hfin']
  refine ⟨?_, ?_, ?_, ?_, ?_, ?_, ?_, ?_, ?_, ?_, ?_⟩
  · rw [hfin', show u.skipNops.listing = u.listing by rw [hs.eq]]; exact hul
  · rw [hfin', show u.skipNops.version = u.version by rw [hs.eq], hu']; exact start_version hv
  · rw [hfin']; exact hub2
  · rw [hfin', show u.skipNops.error = u.error by rw [hs.eq], hu']; exact start_error hv
  · rw [hfin', show u.skipNops.nextId = u.nextId by rw [hs.eq], hu']
  · rw [hfin', show u.skipNops.scratch = u.scratch by rw [hs.eq], hu']
  · rw [hbr]
    have := hs.retired
    rw [hul] at this
    rw [hu'] at this ⊢
    exact this
  · rw [hbr, hfin']; exact hs.current
  · rw [hfin']
    intro j hj
    obtain ⟨h1, b', i, -, h2, h3, h4⟩ := hs.sel j hj
    exact ⟨h1, b', i, h2, h3, hul ▸ h4⟩
  · rw [hfin']; exact hnone
  · intro e
    rw [hfin']
    dsimp only
    rw [show u.triggered = m.trig ++ (m.br.skipNops v.listing v.breakpoints).2.2 by rw [hu'],
      List.mem_append, List.mem_append, mem_bpHits, or_assoc]
    refine or_congr Iff.rfl (or_congr Iff.rfl ?_)
    constructor
    · intro h; exact ⟨_, hk3, h⟩
    · rintro ⟨b', h1, h2⟩
      rw [hk3] at h1; cases h1; exact h2

end Teal
