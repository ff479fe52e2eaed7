import Verif.Lemmas.VmCame

/-!
# Running always ends
-/

namespace Teal

/-- What a branch can still do, with at most `K` new branches at each instruction. -/
def weight (K : Nat) (b : VmBranch) : Nat :=
  match b.line with
  | none => 0
  | some _ => (K + 2) ^ (b.budget.toNat + 1)

def weights (K : Nat) (bs : List VmBranch) : Nat := (bs.map (weight K)).sum

theorem weight_retired {K : Nat} {l : List Op} {b b' : VmBranch} (h : Retired l b b') :
    weight K b' ≤ weight K b := by
  rcases h with rfl | ⟨-, -, -, rfl⟩
  · exact Nat.le_refl _
  · exact Nat.zero_le _

theorem weights_retired {K : Nat} {l : List Op} : ∀ {bs bs' : List VmBranch}, AllRetired l bs bs' →
    weights K bs' ≤ weights K bs := by
  intro bs
  induction bs with
  | nil => intro bs' h; rw [List.length_eq_zero_iff.1 h.1]; exact Nat.le_refl _
  | cons b bs ih =>
    intro bs' h
    cases bs' with
    | nil => exact Nat.zero_le _
    | cons b' bs' =>
      have h1 := weight_retired (K := K) (h.2 0 b b' rfl rfl)
      have h2 := ih (bs' := bs') ⟨by have := h.1; simpa using this, fun i a c ha hc => h.2 (i + 1) a c ha hc⟩
      simp only [weights, List.map_cons, List.sum_cons] at h2 ⊢
      omega

theorem weights_set {K : Nat} {x : VmBranch} : ∀ {bs : List VmBranch} {k : Nat} {b : VmBranch},
    bs[k]? = some b → weights K (bs.set k x) + weight K b = weights K bs + weight K x := by
  intro bs
  induction bs with
  | nil => intro k b h; simp at h
  | cons a bs ih =>
    intro k b h
    cases k with
    | zero =>
      simp only [List.getElem?_cons_zero, Option.some.injEq] at h; subst h
      simp only [weights, List.set_cons_zero, List.map_cons, List.sum_cons]; omega
    | succ k =>
      have := ih (k := k) (b := b) h
      simp only [weights, List.set_cons_succ, List.map_cons, List.sum_cons] at this ⊢; omega

theorem weights_append (K : Nat) (as bs : List VmBranch) :
    weights K (as ++ bs) = weights K as + weights K bs := by
  simp [weights]

theorem weights_le {K B : Nat} : ∀ {bs : List VmBranch}, (∀ b ∈ bs, weight K b ≤ B) →
    weights K bs ≤ bs.length * B := by
  intro bs
  induction bs with
  | nil => intro _; simp [weights]
  | cons b bs ih =>
    intro h
    have h1 := h b (by simp)
    have h2 := ih fun x hx => h x (by simp [hx])
    simp only [weights, List.map_cons, List.sum_cons, List.length_cons, Nat.succ_mul] at h2 ⊢
    omega

theorem weight_le_budget {K : Nat} {b : VmBranch} {B : Nat} (h : b.budget.toNat ≤ B) :
    weight K b ≤ (K + 2) ^ (B + 1) := by
  unfold weight
  split
  · exact Nat.zero_le _
  · exact Nat.pow_le_pow_right (by omega) (by omega)

/-- The number of labels of an instruction is bounded. -/
theorem exists_labels_bound (l : List Op) : ∃ K, ∀ o ∈ l, o.labels.length ≤ K := by
  induction l with
  | nil => exact ⟨0, by simp⟩
  | cons o l ih =>
    obtain ⟨K, h⟩ := ih
    refine ⟨max K o.labels.length, fun x hx => ?_⟩
    rcases List.mem_cons.1 hx with rfl | hx
    · exact Nat.le_max_right _ _
    · exact Nat.le_trans (h x hx) (Nat.le_max_left _ _)

/-- A step without an error on a live branch uses up some weight. -/
theorem step_weight {v w : Vm} (hv : Inv v) {K : Nat} (hK : ∀ o ∈ v.listing, o.labels.length ≤ K)
    (hb : ∀ b ∈ v.branches, 0 ≤ b.budget) (h : v.step = some w) :
    w.error ≠ none ∨ w.branch = none ∨ weights K w.branches < weights K v.branches := by
  have hs := step_spec hv
  rw [h] at hs
  have hst := weights_retired (K := K) (start_retired hv)
  generalize hr : some w = r at hs
  cases hs with
  | idle h0 => cases hr; exact .inr (.inl h0)
  | costErr _ _ => cases hr; exact .inl (by simp)
  | @poor k b i o c ha _ _ =>
    cases hr
    refine .inr (.inr ?_)
    have h1 := weights_set (K := K) (x := b.exit) ha.get
    have h2 : 0 < weight K b := by unfold weight; rw [ha.line]; exact Nat.pow_pos (by omega)
    have h3 : weight K b.exit = 0 := rfl
    show weights K (v.start.branches.set k b.exit) < _
    omega
  | hang => cases hr
  | fail _ _ _ _ => cases hr; exact .inl (by simp)
  | @done k b i o c m ha hc hle hx =>
    cases hr
    have hf := ha.finished hv hx
    have he := exec_ok rfl hx
    refine .inr (.inr ?_)
    have h1 := weights_retired (K := K) hf.branches
    rw [weights_append] at h1
    have h2 := weights_set (K := K) (x := (m.br.skipNops v.listing v.breakpoints).2.1) ha.get
    have hcp := hc.pos
    have hb0 : 0 ≤ b.budget := hb b (List.mem_of_getElem? ha.old)
    obtain ⟨B, hB⟩ : ∃ B, b.budget.toNat = B + 1 := ⟨b.budget.toNat - 1, by omega⟩
    have hw : weight K b = (K + 2) ^ (B + 1) * (K + 2) := by
      unfold weight; rw [ha.line, hB]; exact Nat.pow_succ _ _
    have hself : weight K (m.br.skipNops v.listing v.breakpoints).2.1 ≤ (K + 2) ^ (B + 1) := by
      apply weight_le_budget
      rw [skipNops_same]
      show m.br.budget.toNat ≤ B
      rw [he.budget]
      show (b.budget - c).toNat ≤ B
      omega
    have hfork : weights K m.forks ≤ m.forks.length * (K + 2) ^ (B + 1) := by
      apply weights_le
      intro x hx
      obtain ⟨d, hd⟩ := List.mem_iff_getElem?.1 hx
      obtain ⟨t, ts, -, -, hy⟩ := he.forks d x hd
      apply weight_le_budget
      rw [hy, skipNops_same]
      show (b.budget - c).toNat ≤ B
      omega
    have hcount : m.forks.length ≤ K := Nat.le_trans he.count (hK o (List.mem_of_getElem? ha.op))
    have hmul : m.forks.length * (K + 2) ^ (B + 1) ≤ K * (K + 2) ^ (B + 1) := Nat.mul_le_mul_right _ hcount
    have hpos : 0 < (K + 2) ^ (B + 1) := Nat.pow_pos (by omega)
    have hexp : (K + 2) ^ (B + 1) * (K + 2) = K * (K + 2) ^ (B + 1) + 2 * (K + 2) ^ (B + 1) := by
      rw [Nat.mul_comm, Nat.add_mul]
    omega

theorem budget_step {v w : Vm} (hv : Inv v) (hb : ∀ b ∈ v.branches, 0 ≤ b.budget) (h : v.step = some w) :
    ∀ b ∈ w.branches, 0 ≤ b.budget := by
  intro b' hb'
  obtain ⟨j, hj⟩ := List.mem_iff_getElem?.1 hb'
  cases step_came hv h hj with
  | stayed b h1 h2 _ => rw [h2]; exact hb b (List.mem_of_getElem? h1)
  | acted b i o c _ _ h3 _ h5 _ => rw [h5]; omega
  | forked k b i o c ts t _ _ _ h3 _ _ _ h5 _ => rw [h5]; omega

theorem step_returns {v : Vm} (hv : Inv v) (hd : ∀ n, .u8 .dupn n ∈ v.listing → n < 255) :
    ∃ w, v.step = some w := by
  have hs := step_spec hv
  generalize v.step = r at hs
  cases hs with
  | @hang k b i o c ha _ _ hx =>
    obtain ⟨n, rfl, hn⟩ := exec_hang hx
    have := hd n (List.mem_of_getElem? ha.op)
    omega
  | _ => exact ⟨_, rfl⟩

theorem runs_exists {v : Vm} (hv : Inv v) (hd : ∀ n, .u8 .dupn n ∈ v.listing → n < 255)
    (hb : ∀ b ∈ v.branches, 0 ≤ b.budget) : ∃ w, v.Runs w := by
  obtain ⟨K, hK⟩ := exists_labels_bound v.listing
  generalize hm : weights K v.branches = μ
  induction μ using Nat.strongRecOn generalizing v with
  | ind μ ih =>
    by_cases h1 : v.branch = none
    · exact ⟨v, .stop (.inl h1)⟩
    by_cases h2 : v.error = none
    · obtain ⟨w, hw⟩ := step_returns hv hd
      by_cases h3 : w.triggered = []
      · have hl := (step_listing hv hw).1
        rcases step_weight hv hK hb hw with h4 | h4 | h4
        · exact ⟨w, .next h1 h2 hw h3 (.stop (.inr h4))⟩
        · exact ⟨w, .next h1 h2 hw h3 (.stop (.inl h4))⟩
        · obtain ⟨u, hu⟩ := ih (weights K w.branches) (by omega) (inv_step hv hw) (by rw [hl]; exact hd)
            (budget_step hv hb hw) (by rw [hl]; exact hK) rfl
          exact ⟨u, .next h1 h2 hw h3 hu⟩
      · exact ⟨w, .hit h1 h2 hw h3⟩
    · exact ⟨v, .stop (.inr h2)⟩

theorem new_branches (l : List Op) (version : Nat) : ∃ b, (Vm.new l version).branches = [b] ∧
    b.id = 0 ∧ b.stack = [] ∧ b.frames = [] ∧ b.budget = 700 ∧ b.trace = [] := by
  obtain ⟨j, nm, -, ⟨hi, h⟩ | ⟨hl, h⟩⟩ := new_cases l version <;> rw [h] <;>
    exact ⟨_, rfl, rfl, rfl, rfl, rfl, rfl⟩

theorem switch_branches (v : Vm) (id : Nat) : (v.switch id).branches = v.branches := by
  unfold Vm.switch; split <;> rfl

theorem setBreakpoints_branches {v w : Vm} {lns : List Int} (h : v.setBreakpoints lns = some w) :
    w.branches = v.branches := by
  unfold Vm.setBreakpoints at h
  obtain ⟨bps, -, rfl⟩ := Option.map_eq_some_iff.1 h
  rfl

/-- A property of branches which `Step` keeps and gives to new branches holds for all branches of
a session. -/
theorem session_branches {l : List Op} {version : Nat} {P : VmBranch → Prop}
    (hn : ∀ b ∈ (Vm.new l version).branches, P b)
    (hs : ∀ (v w : Vm), Inv v → v.listing = l → v.version = version → (∀ b ∈ v.branches, P b) →
      v.step = some w → ∀ b ∈ w.branches, P b) {v : Vm}
    (h : Spec.Session l version v) : ∀ b ∈ v.branches, P b := by
  have key := session_induct (l := l) (version := version)
    (P := fun v => (v.listing = l ∧ v.version = version) ∧ ∀ b ∈ v.branches, P b)
    ⟨session_listing .new, hn⟩
    (fun v w hv hp h1 => by
      obtain ⟨e1, e2, -⟩ := step_listing hv h1
      exact ⟨⟨e1.trans hp.1.1, e2.trans hp.1.2⟩, hs v w hv hp.1.1 hp.1.2 hp.2 h1⟩)
    (fun v id hv hp => by
      refine ⟨?_, by rw [switch_branches]; exact hp.2⟩
      unfold Vm.switch; split <;> exact hp.1)
    (fun v w lns hv hp h1 => by
      refine ⟨?_, by rw [setBreakpoints_branches h1]; exact hp.2⟩
      unfold Vm.setBreakpoints at h1
      obtain ⟨bps, -, rfl⟩ := Option.map_eq_some_iff.1 h1
      exact hp.1) h
  exact key.2.2

theorem session_budget {l : List Op} {version : Nat} {v : Vm} (h : Spec.Session l version v) :
    ∀ b ∈ v.branches, 0 ≤ b.budget := by
  refine session_branches ?_ (fun v w hv _ _ hp h1 => budget_step hv hp h1) h
  obtain ⟨b, hb, -, -, -, h700, -⟩ := new_branches l version
  rw [hb]; intro x hx; rw [List.mem_singleton.1 hx, h700]; decide

end Teal
