import Verif.Lemmas.VmStep
import Verif.Spec.Vm

/-!
# Invariants of the machine
-/

namespace Teal

theorem forkBranches_get {l : List Op} {bps : List Nat} {b : VmBranch} {ts : List Bytes} :
    ∀ {id d : Nat} {r : Bool × VmBranch × List (Nat × Nat)},
    (forkBranches l bps b id ts)[d]? = some r → ∃ t, ts[d]? = some t ∧
      r = ({ id := id + d, line := findLabel l t, stack := b.stack, frames := [],
             budget := b.budget, name := t, trace := b.trace : VmBranch }.skipNops l bps) := by
  induction ts with
  | nil => intro id d r h; simp [forkBranches] at h
  | cons t ts ih =>
    intro id d r h
    cases d with
    | zero =>
      simp only [forkBranches, List.getElem?_cons_zero, Option.some.injEq] at h
      exact ⟨t, rfl, h.symm⟩
    | succ d =>
      simp only [forkBranches, List.getElem?_cons_succ] at h
      obtain ⟨t', h1, h2⟩ := ih h
      refine ⟨t', h1, ?_⟩
      rw [h2, show id + 1 + d = id + (d + 1) by omega]

/-- What a successful instruction leaves alone, and its new branches. -/
structure ExecOk (v : Vm) (o : Op) (m0 m : Mach) : Prop where
  id : m.br.id = m0.br.id
  budget : m.br.budget = m0.br.budget
  trace : m.br.trace = m0.br.trace
  scratch : m.scratch.length = m0.scratch.length
  nextId : m.nextId = m0.nextId + m.forks.length
  forks : ∀ (d : Nat) (x : VmBranch), m.forks[d]? = some x → ∃ (t : Bytes) (ts : List Bytes),
    o.forksTo? = some ts ∧ ts[d]? = some t ∧
    x = ({ id := m0.nextId + d, line := findLabel v.listing t, stack := m.br.stack, frames := [],
           budget := m0.br.budget, name := t, trace := m0.br.trace : VmBranch }.skipNops
           v.listing v.breakpoints).2.1
  settled : ∀ x ∈ m.forks, Settled v.listing x
  count : m.forks.length ≤ o.labels.length

theorem forksTo_labels {o : Op} {ts : List Bytes} (h : o.forksTo? = some ts) : o.labels = ts := by
  unfold Op.forksTo? at h
  split at h <;> first | (cases h; done) | (cases h; rfl)

theorem exec_ok {v : Vm} {o : Op} {m0 m : Mach} (hf : m0.forks = [])
    (h : v.executeOp o m0 = .ok () m) : ExecOk v o m0 m := by
  have hs := executeOp_spec v o m0
  rw [h] at hs
  generalize hr : (XRes.ok () m) = r at hs
  cases hs with
  | hang n _ _ => cases hr
  | panic e m' _ => cases hr
  | straight m1 _ _ _ hc =>
    cases hr
    obtain ⟨s, sc, hl, rfl⟩ := hc
    exact ⟨rfl, rfl, rfl, hl, by simp [hf], by simp [hf], by simp [hf], by simp [hf]⟩
  | proto a r f fs _ _ => cases hr; exact ⟨rfl, rfl, rfl, rfl, by simp [hf], by simp [hf], by simp [hf], by simp [hf]⟩
  | exit m1 _ hc =>
    cases hr
    obtain ⟨s, sc, hl, rfl⟩ := hc
    exact ⟨rfl, rfl, rfl, hl, by simp [hf], by simp [hf], by simp [hf], by simp [hf]⟩
  | jump t _ => cases hr; exact ⟨rfl, rfl, rfl, rfl, by simp [hf], by simp [hf], by simp [hf], by simp [hf]⟩
  | call t _ => cases hr; exact ⟨rfl, rfl, rfl, rfl, by simp [hf], by simp [hf], by simp [hf], by simp [hf]⟩
  | ret f fs m1 _ _ hc =>
    cases hr
    obtain ⟨s, sc, hl, rfl⟩ := hc
    exact ⟨rfl, rfl, rfl, hl, by simp [hf], by simp [hf], by simp [hf], by simp [hf]⟩
  | retNone _ _ => cases hr; exact ⟨rfl, rfl, rfl, rfl, by simp [hf], by simp [hf], by simp [hf], by simp [hf]⟩
  | fork ts m1 ht hc =>
    cases hr
    obtain ⟨s, sc, hl, rfl⟩ := hc
    refine ⟨rfl, rfl, rfl, hl, ?_, ?_, ?_, ?_⟩
    · simp [hf, forkBranches_length]
    · intro d x hx
      simp only [hf, List.nil_append, List.getElem?_map, Option.map_eq_some_iff] at hx
      obtain ⟨r, hr, rfl⟩ := hx
      obtain ⟨t, h1, h2⟩ := forkBranches_get hr
      exact ⟨t, ts, ht, h1, by rw [h2]; rfl⟩
    · intro x hx
      simp only [hf, List.nil_append, List.mem_map] at hx
      obtain ⟨r, hr, rfl⟩ := hx
      obtain ⟨d, hd⟩ := List.mem_iff_getElem?.1 hr
      obtain ⟨t, h1, h2⟩ := forkBranches_get hd
      rw [h2]
      exact skipNops_settled _ _ _
    · rw [forksTo_labels ht]; simp [hf, forkBranches_length]

theorem exec_panic {v : Vm} {o : Op} {m0 m : Mach} {e : VmErr}
    (h : v.executeOp o m0 = .panic e m) : Chg m0 m := by
  have hs := executeOp_spec v o m0
  rw [h] at hs
  generalize hr : (XRes.panic e m : XRes Unit) = r at hs
  cases hs <;> first | (cases hr; assumption) | (cases hr; done)

theorem exec_hang {v : Vm} {o : Op} {m0 : Mach}
    (h : v.executeOp o m0 = .hang) : ∃ n, o = .u8 .dupn n ∧ 255 ≤ n := by
  have hs := executeOp_spec v o m0
  rw [h] at hs
  generalize hr : (XRes.hang : XRes Unit) = r at hs
  cases hs with
  | hang n h1 h2 => exact ⟨n, h1, h2⟩
  | _ => cases hr

theorem Retired.same {l : List Op} {b b' : VmBranch} (h : Retired l b b') :
    b' = { b with line := b'.line, name := b'.name } := by
  rcases h with rfl | ⟨-, -, -, rfl⟩ <;> rfl

theorem Retired.settled {l : List Op} {b b' : VmBranch} (h : Retired l b b') (hs : Settled l b) :
    Settled l b' := by
  rcases h with rfl | ⟨-, -, -, rfl⟩
  · exact hs
  · intro i hi; cases hi

/-- Where the branch at position `j` after a step comes from. -/
inductive Origin (v : Vm) (k : Nat) (m : Mach) (j : Nat) (b' : VmBranch) : Prop
  | other (b : VmBranch) : j ≠ k → v.branches[j]? = some b → Retired v.listing b b' → Origin v k m j b'
  | self : j = k → Retired v.listing (m.br.skipNops v.listing v.breakpoints).2.1 b' → Origin v k m j b'
  | fork (x : VmBranch) : v.branches.length ≤ j → m.forks[j - v.branches.length]? = some x →
      Retired v.listing x b' → Origin v k m j b'

theorem finished_origin {v w : Vm} (hv : Inv v) {k : Nat} {m : Mach} (h : Finished v k m w)
    {j : Nat} {b' : VmBranch} (hb : w.branches[j]? = some b') : Origin v k m j b' := by
  have hj : j < w.branches.length := (List.getElem?_eq_some_iff.1 hb).1
  have hj2 := hj
  rw [h.branches.1] at hj2
  have hr := h.branches.2 j _ b' (List.getElem?_eq_getElem hj2) hb
  have hget := List.getElem?_eq_getElem hj2
  generalize (v.start.branches.set k (m.br.skipNops v.listing v.breakpoints).2.1 ++ m.forks)[j] = x at hr hget
  have hlen : v.start.branches.length = v.branches.length := (start_retired hv).1
  rcases Nat.lt_or_ge j v.branches.length with hlt | hge
  · rw [List.getElem?_append_left (by rw [List.length_set, hlen]; exact hlt)] at hget
    rcases getElem?_set_cases hget with ⟨rfl, rfl⟩ | ⟨hne, hg⟩
    · exact .self rfl hr
    · exact .other _ hne (List.getElem?_eq_getElem hlt)
        (((start_retired hv).2 j _ x (List.getElem?_eq_getElem hlt) hg).trans hr)
  · rw [List.getElem?_append_right (by rw [List.length_set, hlen]; exact hge), List.length_set, hlen] at hget
    exact .fork x hge hget hr

theorem getElem?_of_mem' {α : Type} {l : List α} {a : α} (h : a ∈ l) : ∃ i : Nat, l[i]? = some a :=
  List.mem_iff_getElem?.1 h

theorem start_settled {v : Vm} (hv : Inv v) {x : VmBranch} (hx : x ∈ v.start.branches) :
    Settled v.listing x := by
  obtain ⟨i, hi⟩ := getElem?_of_mem' hx
  have hi' : i < v.branches.length := by
    rw [← (start_retired hv).1]; exact (List.getElem?_eq_some_iff.1 hi).1
  exact ((start_retired hv).2 i _ x (List.getElem?_eq_getElem hi') hi).settled
    (hv.settled _ (List.getElem_mem hi'))

theorem start_origin {v : Vm} (hv : Inv v) {i : Nat} {x : VmBranch} (hi : v.start.branches[i]? = some x) :
    ∃ b, v.branches[i]? = some b ∧ Retired v.listing b x := by
  have hi' : i < v.branches.length := by
    rw [← (start_retired hv).1]; exact (List.getElem?_eq_some_iff.1 hi).1
  exact ⟨_, List.getElem?_eq_getElem hi', (start_retired hv).2 i _ x (List.getElem?_eq_getElem hi') hi⟩

theorem inv_start {v : Vm} (hv : Inv v) : Inv v.start := by
  have hs := (start_skip hv).1
  have hids : ∀ (i : Nat) (b : VmBranch), v.start.branches[i]? = some b → b.id = i := by
    intro i b hb
    obtain ⟨b0, h1, h2⟩ := start_origin hv hb
    rw [h2.same]; exact hv.ids i b0 h1
  refine ⟨hids, ?_, hs.current, fun k hk => (hs.sel k hk).1, ?_, ?_, ?_⟩
  · rw [start_nextId hv, hv.next, (start_retired hv).1]
  · intro b hb; rw [start_listing hv]; exact start_settled hv hb
  · rw [start_scratch hv]; exact hv.scratch
  · rw [start_breakpoints hv, start_listing hv]; exact hv.bps

theorem Acts.finished {v : Vm} (hv : Inv v) {k : Nat} {b : VmBranch} {i : Nat} {o : Op} {c : Int}
    {m : Mach} (ha : Acts v k b i o) (hx : v.executeOp o (v.mach b o c) = .ok () m) :
    Finished v k m (v.finish k m) :=
  finish_spec hv ha.get m (exec_ok rfl hx).settled

theorem inv_step {v w : Vm} (hv : Inv v) (h : v.step = some w) : Inv w := by
  have hs := step_spec hv
  rw [h] at hs
  have hst := inv_start hv
  generalize hr : some w = r at hs
  cases hs with
  | idle _ => cases hr; exact hst
  | costErr _ _ => cases hr; exact ⟨hst.ids, hst.next, hst.current, hst.sel, hst.settled, hst.scratch, hst.bps⟩
  | @poor k b i o c ha _ _ =>
    cases hr
    refine ⟨?_, ?_, ?_, hst.sel, ?_, hst.scratch, hst.bps⟩
    · intro j x hx
      rcases getElem?_set_cases hx with ⟨rfl, rfl⟩ | ⟨-, h⟩
      · exact hst.ids j b ha.get
      · exact hst.ids j x h
    · show v.start.nextId = _; rw [hst.next]; exact List.length_set.symm
    · show _ < _; rw [List.length_set]; exact hst.current
    · intro x hx
      rcases List.mem_or_eq_of_mem_set hx with h | rfl
      · exact hst.settled x h
      · intro i hi; cases hi
  | hang => cases hr
  | @fail k b i o c e m ha _ _ hx =>
    cases hr
    obtain ⟨s, sc, hl, hm⟩ := exec_panic hx
    subst hm
    have hb := ha.get
    have hk : k < v.start.branches.length := (List.getElem?_eq_some_iff.1 hb).1
    refine ⟨?_, ?_, ?_, hst.sel, ?_, ?_, hst.bps⟩
    · intro j x hx
      simp only [Vm.writeBack, Vm.mach, List.append_nil] at hx
      rcases getElem?_set_cases hx with ⟨rfl, rfl⟩ | ⟨-, h⟩
      · exact hst.ids j b hb
      · exact hst.ids j x h
    · simp only [Vm.writeBack, Vm.mach, List.append_nil, List.length_set]
      rw [hv.next, (start_retired hv).1]
    · simp only [Vm.writeBack, Vm.mach, List.append_nil, List.length_set]
      exact hst.current
    · intro x hx
      simp only [Vm.writeBack, Vm.mach, List.append_nil] at hx
      rcases List.mem_or_eq_of_mem_set hx with h | rfl
      · exact hst.settled x h
      · intro j hj
        exact hst.settled b (List.mem_iff_getElem?.2 ⟨k, hb⟩) j hj
    · simp only [Vm.writeBack]
      rw [hl]; exact hv.scratch
  | @done k b i o c m ha _ _ hx =>
    cases hr
    have hf := ha.finished hv hx
    have he := exec_ok rfl hx
    have hlen : (v.finish k m).branches.length = v.branches.length + m.forks.length := by
      rw [hf.branches.1, List.length_append, List.length_set, (start_retired hv).1]
    refine ⟨?_, ?_, hf.current, fun j hj => (hf.sel j hj).1, ?_, ?_, ?_⟩
    · intro j x hx
      cases finished_origin hv hf hx with
      | other b0 _ h1 h2 => rw [h2.same]; exact hv.ids j b0 h1
      | self h1 h2 =>
        rw [h2.same]; dsimp only; rw [skipNops_same]; dsimp only; rw [he.id, h1]
        exact hv.ids k b ha.old
      | fork y h1 h2 h3 =>
        obtain ⟨t, ts, -, -, hy⟩ := he.forks _ _ h2
        rw [h3.same]; dsimp only; rw [hy, skipNops_same]; dsimp only [Vm.mach]
        rw [hv.next]; omega
    · rw [hf.nextId, he.nextId, hlen]; dsimp only [Vm.mach]; rw [hv.next]
    · intro x hx
      obtain ⟨j, hj⟩ := getElem?_of_mem' hx
      rw [hf.listing]
      cases finished_origin hv hf hj with
      | other b0 _ h1 h2 => exact h2.settled (hv.settled b0 (List.mem_iff_getElem?.2 ⟨j, h1⟩))
      | self h1 h2 => exact h2.settled (skipNops_settled _ _ _)
      | fork y h1 h2 h3 => exact h3.settled (he.settled y (List.mem_iff_getElem?.2 ⟨_, h2⟩))
    · rw [hf.scratch, he.scratch]; exact hv.scratch
    · rw [hf.breakpoints, hf.listing]; exact hv.bps

theorem findIdx?_spec {l : List VmBranch} {id i : Nat}
    (h : (l.findIdx? fun b => b.id == id) = some i) : ∃ b, l[i]? = some b ∧ b.id = id := by
  rw [List.findIdx?_eq_some_iff_getElem] at h
  obtain ⟨hi, h1, -⟩ := h
  exact ⟨_, List.getElem?_eq_getElem hi, by simpa using h1⟩

theorem inv_switch {v : Vm} (hv : Inv v) (id : Nat) : Inv (v.switch id) := by
  unfold Vm.switch
  split
  · rename_i i hi
    obtain ⟨b, h1, -⟩ := findIdx?_spec hi
    exact ⟨hv.ids, hv.next, (List.getElem?_eq_some_iff.1 h1).1, fun k hk => by cases hk; rfl, hv.settled,
      hv.scratch, hv.bps⟩
  · exact hv

theorem checkBreakpoints_spec {l : List Op} : ∀ {lns : List Int} {bps : List Nat},
    Vm.checkBreakpoints l lns = some bps → ∀ x : Nat, x ∈ bps ↔ (x : Int) ∈ lns ∧ InstrAt l x := by
  intro lns
  induction lns with
  | nil => intro bps h; simp only [Vm.checkBreakpoints, Option.some.injEq] at h; subst h; simp
  | cons ln lns ih =>
    intro bps h x
    unfold Vm.checkBreakpoints at h
    split at h
    · rename_i hge
      rw [ih h x, List.mem_cons]
      constructor
      · rintro ⟨h1, h2⟩; exact ⟨.inr h1, h2⟩
      · rintro ⟨h1 | h1, h2⟩
        · have := h2.lt; omega
        · exact ⟨h1, h2⟩
    · split at h
      · cases h
      · rename_i h1 h2
        split at h
        · cases h
        · rename_i o ho
          obtain ⟨r, hr, rfl⟩ := Option.map_eq_some_iff.1 h
          have hln : (ln.toNat : Int) = ln := by omega
          cases hn : o.isNop with
          | true =>
            rw [if_pos rfl, ih hr x, List.mem_cons]
            constructor
            · rintro ⟨h1, h2⟩; exact ⟨.inr h1, h2⟩
            · rintro ⟨h1 | h1, h2⟩
              · have : x = ln.toNat := by omega
                subst this
                exact (instr_not_nop h2 ⟨o, ho, hn⟩).elim
              · exact ⟨h1, h2⟩
          | false =>
            rw [if_neg (by simp), List.mem_cons, ih hr x, List.mem_cons]
            constructor
            · rintro (h | ⟨h1, h2⟩)
              · subst h; exact ⟨.inl hln, o, ho, hn⟩
              · exact ⟨.inr h1, h2⟩
            · rintro ⟨h1 | h1, h2⟩
              · left; omega
              · exact .inr ⟨h1, h2⟩

theorem inv_setBreakpoints {v w : Vm} (hv : Inv v) {lns : List Int}
    (h : v.setBreakpoints lns = some w) : Inv w := by
  unfold Vm.setBreakpoints at h
  obtain ⟨bps, h1, rfl⟩ := Option.map_eq_some_iff.1 h
  exact ⟨hv.ids, hv.next, hv.current, hv.sel, hv.settled, hv.scratch,
    fun x hx => ((checkBreakpoints_spec h1 x).1 hx).2⟩

/-- The state of a new machine. -/
theorem new_cases (l : List Op) (version : Nat) : ∃ (j : Nat) (nm : Bytes),
    NopsBetween l 0 j ∧
    ((InstrAt l j ∧ Vm.new l version = {
        listing := l, version := version, nextId := 1, scratch := List.replicate 256 ⟨.none, .none⟩
        branches := [{ id := 0, line := some j, stack := [], frames := [], budget := 700, name := nm, trace := [] }]
        branch := some 0, current := 0, breakpoints := [], triggered := [], error := none }) ∨
     (l.length ≤ j ∧ Vm.new l version = {
        listing := l, version := version, nextId := 1, scratch := List.replicate 256 ⟨.none, .none⟩
        branches := [{ id := 0, line := none, stack := [], frames := [], budget := 700, name := exitName, trace := [] }]
        branch := none, current := 0, breakpoints := [], triggered := [], error := none })) := by
  obtain ⟨b0, hb0⟩ : ∃ b0 : VmBranch, b0 = { id := 0, line := some 0, stack := [], frames := [], budget := 700, name := mainName, trace := [] } := ⟨_, rfl⟩
  have hl : b0.line = some 0 := by rw [hb0]
  obtain ⟨j, -, hr, hnb, ht, hf, -, u, hu, hu1, -⟩ := (skipNops_some l [] b0 0 hl).land
  have hu0 : u = [] := by
    cases u with
    | nil => rfl
    | cons e u => have := (hu1 e (by simp)).2.1; simp at this
  refine ⟨j, (b0.skipNops l []).2.1.name, hnb, ?_⟩
  have key : ∀ v : Vm, v.listing = l → v.breakpoints = [] → v.branches = [b0] → v.current = 0 →
      Vm.skipBranches 1 v = if (b0.skipNops l []).1 then
        { v with branches := [(b0.skipNops l []).2.1], triggered := v.triggered ++ (b0.skipNops l []).2.2
                 branch := some 0 }
      else { v with branches := [(b0.skipNops l []).2.1.exit]
                    triggered := v.triggered ++ (b0.skipNops l []).2.2, branch := none } := by
    intro v h1 h2 h3 h4
    unfold Vm.skipBranches
    rw [h3, h4]
    dsimp only [List.getElem?_cons_zero]
    rw [h1, h2, hl, if_neg (by simp)]
    cases (b0.skipNops l []).1
    · rw [if_neg (by simp), if_neg (by simp)]
      unfold Vm.skipBranches Vm.advance
      simp
    · rw [if_pos rfl, if_pos rfl]
      simp
  have hnew : Vm.new l version = Vm.skipBranches 1 {
      listing := l, version := version, nextId := 1, scratch := List.replicate 256 ⟨.none, .none⟩
      branches := [b0], branch := none, current := 0, breakpoints := [], triggered := [], error := none } := by
    rw [hb0]; rfl
  rw [hnew, key _ rfl rfl rfl rfl, hu, hu0]
  cases hc : (b0.skipNops l []).1 with
  | true =>
    refine .inl ⟨ht hc, ?_⟩
    rw [if_pos rfl, hr, hb0]
    rfl
  | false =>
    refine .inr ⟨hf hc, ?_⟩
    rw [if_neg (by simp), hr, hb0]
    rfl

theorem inv_new (l : List Op) (version : Nat) : Inv (Vm.new l version) := by
  obtain ⟨j, nm, -, ⟨hi, h⟩ | ⟨hl, h⟩⟩ := new_cases l version <;> rw [h]
  · refine ⟨?_, rfl, Nat.zero_lt_one, fun k hk => (by cases hk; rfl), ?_, List.length_replicate, fun x hx => (by cases hx)⟩
    · intro i b hb
      cases i with
      | zero => cases hb; rfl
      | succ i => simp at hb
    · intro b hb
      simp only [List.mem_singleton] at hb
      subst hb
      intro i hi'
      cases hi'
      exact .inr hi
  · refine ⟨?_, rfl, Nat.zero_lt_one, fun k hk => (by cases hk), ?_, List.length_replicate, fun x hx => (by cases hx)⟩
    · intro i b hb
      cases i with
      | zero => cases hb; rfl
      | succ i => simp at hb
    · intro b hb
      simp only [List.mem_singleton] at hb
      subst hb
      intro i hi'
      cases hi'

/-- A property of machines kept by `Step` is kept by `Run`. -/
theorem runs_induct {P : Vm → Prop} (hs : ∀ v w, P v → v.step = some w → P w) {v w : Vm}
    (h : v.Runs w) (hv : P v) : P w := by
  induction h with
  | stop _ => exact hv
  | hit _ _ h1 _ => exact hs _ _ hv h1
  | next _ _ h1 _ _ ih => exact ih (hs _ _ hv h1)

/-- A property of machines kept by the commands holds throughout a session. -/
theorem session_induct {l : List Op} {version : Nat} {P : Vm → Prop} (hn : P (Vm.new l version))
    (hs : ∀ v w, Inv v → P v → v.step = some w → P w)
    (hsw : ∀ v id, Inv v → P v → P (v.switch id))
    (hb : ∀ v w lns, Inv v → P v → v.setBreakpoints lns = some w → P w) {v : Vm}
    (h : Spec.Session l version v) : Inv v ∧ P v := by
  have hs' : ∀ v w, Inv v ∧ P v → v.step = some w → Inv w ∧ P w :=
    fun v w hv h => ⟨inv_step hv.1 h, hs v w hv.1 hv.2 h⟩
  induction h with
  | new => exact ⟨inv_new l version, hn⟩
  | step _ h1 ih => exact hs' _ _ ih h1
  | run _ h1 ih => exact runs_induct hs' h1 ih
  | switch id _ ih => exact ⟨inv_switch ih.1 id, hsw _ id ih.1 ih.2⟩
  | breakpoints lns _ h1 ih => exact ⟨inv_setBreakpoints ih.1 h1, hb _ _ lns ih.1 ih.2 h1⟩

theorem session_inv {l : List Op} {version : Nat} {v : Vm} (h : Spec.Session l version v) : Inv v :=
  (session_induct (P := fun _ => True) trivial (fun _ _ _ _ _ => trivial) (fun _ _ _ _ => trivial)
    (fun _ _ _ _ _ _ => trivial) h).1

theorem step_listing {v w : Vm} (hv : Inv v) (h : v.step = some w) :
    w.listing = v.listing ∧ w.version = v.version ∧ w.breakpoints = v.breakpoints := by
  have hs := step_spec hv
  rw [h] at hs
  generalize hr : some w = r at hs
  cases hs with
  | idle _ => cases hr; exact ⟨start_listing hv, start_version hv, start_breakpoints hv⟩
  | costErr _ _ => cases hr; exact ⟨start_listing hv, start_version hv, start_breakpoints hv⟩
  | poor _ _ _ => cases hr; exact ⟨start_listing hv, start_version hv, start_breakpoints hv⟩
  | hang => cases hr
  | fail _ _ _ _ => cases hr; exact ⟨start_listing hv, start_version hv, start_breakpoints hv⟩
  | done ha _ _ hx =>
    cases hr
    have hf := ha.finished hv hx
    exact ⟨hf.listing, hf.version, hf.breakpoints⟩

theorem session_listing {l : List Op} {version : Nat} {v : Vm} (h : Spec.Session l version v) :
    v.listing = l ∧ v.version = version := by
  refine (session_induct (P := fun v => v.listing = l ∧ v.version = version) ?_ ?_ ?_ ?_ h).2
  · obtain ⟨j, nm, -, ⟨hi, h⟩ | ⟨hl, h⟩⟩ := new_cases l version <;> rw [h] <;> exact ⟨rfl, rfl⟩
  · intro v w hv hp h1
    obtain ⟨e1, e2, -⟩ := step_listing hv h1
    exact ⟨e1.trans hp.1, e2.trans hp.2⟩
  · intro v id _ hp
    unfold Vm.switch
    split <;> exact hp
  · intro v w lns _ hp h1
    unfold Vm.setBreakpoints at h1
    obtain ⟨bps, -, rfl⟩ := Option.map_eq_some_iff.1 h1
    exact hp

end Teal
