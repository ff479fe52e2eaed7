import Verif.Lemmas.VmInv
import Verif.Spec.Cost

/-!
# Where the branches after a step come from
-/

namespace Teal

/-- The selected branch, at an instruction, is the one that acts. -/
theorem start_of_current {v : Vm} (hv : Inv v) {k i : Nat} {b : VmBranch} {o : Op}
    (h1 : v.branch = some k) (h2 : v.branches[k]? = some b) (h3 : b.line = some i)
    (h4 : v.listing[i]? = some o) :
    v.start = { v with error := none, triggered := [] } ∧ o.isNop = false := by
  have hs := hv.settled b (List.mem_of_getElem? h2)
  have hi : InstrAt v.listing i := by
    rcases hs i h3 with h | h
    · rw [List.getElem?_eq_none h] at h4; cases h4
    · exact h
  have hk := hv.sel k h1
  have hpos : 0 < v.branches.length := Nat.lt_of_le_of_lt (Nat.zero_le _) hv.current
  refine ⟨?_, ?_⟩
  · show Vm.skipBranches v.branches.length _ = _
    obtain ⟨n, hn⟩ : ∃ n, v.branches.length = n + 1 := ⟨v.branches.length - 1, by omega⟩
    rw [hn]
    unfold Vm.skipBranches
    dsimp only
    rw [← hk, h2]
    dsimp only
    rw [h3, if_neg (by simp)]
    obtain ⟨e1, e2⟩ := skipNops_of_settled v.listing v.breakpoints b hs
    rw [if_pos (e2.2 ⟨i, h3, hi⟩), e1, set_self h2, ← h1]
    rfl
  · obtain ⟨o', h, hn⟩ := hi
    rw [h4] at h; cases h; exact hn

theorem acts_of_current {v : Vm} (hv : Inv v) {k i : Nat} {b : VmBranch} {o : Op}
    (h1 : v.branch = some k) (h2 : v.branches[k]? = some b) (h3 : b.line = some i)
    (h4 : v.listing[i]? = some o) : Acts v k b i o := by
  obtain ⟨hs, hn⟩ := start_of_current hv h1 h2 h3 h4
  exact ⟨by rw [hs]; exact h1, by rw [hs]; exact hv.sel k h1, h2, by rw [hs]; exact h2, h3, h4, hn⟩

/-- Where a branch after a step comes from. -/
inductive Came (v : Vm) (j : Nat) (b' : VmBranch) : Prop
  /-- it did not execute anything -/
  | stayed (b : VmBranch) : v.branches[j]? = some b →
      b' = { b with line := b'.line, name := b'.name } → (b'.line = b.line ∨ b'.line = none) →
      Came v j b'
  /-- it executed an instruction -/
  | acted (b : VmBranch) (i : Nat) (o : Op) (c : Int) : Acts v j b i o → CostIs v.version b o c →
      c ≤ b.budget → b'.id = b.id → b'.budget = b.budget - c → b'.trace = b.trace ++ [o] → Came v j b'
  /-- it was created -/
  | forked (k : Nat) (b : VmBranch) (i : Nat) (o : Op) (c : Int) (ts : List Bytes) (t : Bytes) :
      v.branches.length ≤ j → Acts v k b i o → CostIs v.version b o c → c ≤ b.budget →
      o.forksTo? = some ts → ts[j - v.branches.length]? = some t → b'.id = j →
      b'.budget = b.budget - c → b'.trace = b.trace ++ [o] → Came v j b'

theorem Retired.line {l : List Op} {b b' : VmBranch} (h : Retired l b b') :
    b'.line = b.line ∨ b'.line = none := by
  rcases h with rfl | ⟨-, -, -, rfl⟩
  · exact .inl rfl
  · exact .inr rfl

theorem Came.start {v : Vm} (hv : Inv v) {j : Nat} {b' : VmBranch} (h : v.start.branches[j]? = some b') :
    Came v j b' := by
  obtain ⟨b, h1, h2⟩ := start_origin hv h
  exact .stayed b h1 h2.same h2.line

theorem step_came {v w : Vm} (hv : Inv v) (h : v.step = some w) {j : Nat} {b' : VmBranch}
    (hb : w.branches[j]? = some b') : Came v j b' := by
  have hs := step_spec hv
  rw [h] at hs
  generalize hr : some w = r at hs
  cases hs with
  | idle _ => cases hr; exact .start hv hb
  | costErr _ _ => cases hr; exact .start hv hb
  | @poor k b i o c ha _ _ =>
    cases hr
    rcases getElem?_set_cases hb with ⟨rfl, rfl⟩ | ⟨-, h⟩
    · exact .stayed b ha.old rfl (.inr rfl)
    · exact .start hv h
  | hang => cases hr
  | @fail k b i o c e m ha hc hle hx =>
    cases hr
    obtain ⟨s, sc, hl, hm⟩ := exec_panic hx
    subst hm
    simp only [Vm.writeBack, Vm.mach, List.append_nil] at hb
    rcases getElem?_set_cases hb with ⟨rfl, rfl⟩ | ⟨-, h⟩
    · exact .acted b i o c ha hc hle rfl rfl rfl
    · exact .start hv h
  | @done k b i o c m ha hc hle hx =>
    cases hr
    have hf := ha.finished hv hx
    have he := exec_ok rfl hx
    cases finished_origin hv hf hb with
    | other b0 hne h1 h2 => exact .stayed b0 h1 h2.same h2.line
    | self h1 h2 =>
      subst h1
      refine .acted b i o c ha hc hle ?_ ?_ ?_
      · rw [h2.same]; dsimp only; rw [skipNops_same]; exact he.id
      · rw [h2.same]; dsimp only; rw [skipNops_same]; exact he.budget
      · rw [h2.same]; dsimp only; rw [skipNops_same]; exact he.trace
    | fork y h1 h2 h3 =>
      obtain ⟨t, ts, hts, ht, hy⟩ := he.forks _ _ h2
      refine .forked k b i o c ts t h1 ha hc hle hts ht ?_ ?_ ?_
      · rw [h3.same]; dsimp only; rw [hy, skipNops_same]; dsimp only [Vm.mach]; rw [hv.next]; omega
      · rw [h3.same]; dsimp only; rw [hy, skipNops_same]; rfl
      · rw [h3.same]; dsimp only; rw [hy, skipNops_same]; rfl

/-! ## Costs -/

theorem lengthOf_lengths {s : VmSrc} {k : Nat} (h : Spec.LengthOf s k) : s.lengths = [k] := by
  induction h with
  | const b => rfl
  | selector s => rfl
  | loaded t s n _ ih => exact ih

theorem ceilDiv16 (n : Nat) : base64Cost n = ((1 + Spec.ceilDiv n 16 : Nat) : Int) := by
  unfold base64Cost Spec.ceilDiv
  split <;> omega

theorem plain_cost (version : Nat) (k : Plain) :
    (k.costs version = [] ∧ Spec.fixedCost version (.plain k) = none) ∨
    ∃ n : Nat, k.costs version = [(n : Int)] ∧ Spec.fixedCost version (.plain k) = some n := by
  by_cases hv : version = 1 <;> cases k <;> simp [Plain.costs, Spec.fixedCost, hv]

/-- The charge is the AVM's cost, except for `json_ref`. -/
theorem costIs_spec {version : Nat} {b : VmBranch} {o : Op} {c : Int} (h : CostIs version b o c)
    (hj : ∀ f, o ≠ .field .jsonRef f) : Spec.Cost version o b.stack c := by
  unfold CostIs at h
  have ec : ∀ {x y : Nat} {k : FieldOp} {g : Nat},
      (∀ v, Spec.fixedCost v (.field k g) = some (if g < 2 then x else y)) →
      ((ecCosts x y g = .ok [] ∧ c = 1) ∨ ecCosts x y g = .ok [c]) →
      Spec.Cost version (.field k g) b.stack c := by
    intro x y k g hk h
    have := Spec.Cost.fixed (stack := b.stack) _ (hk version)
    unfold ecCosts at h
    split at h
    · rw [if_pos (by omega)] at this
      simp at h; rw [← h]; exact this
    · split at h
      · rw [if_neg (by omega)] at this
        simp at h; rw [← h]; exact this
      · simp at h
  cases o with
  | plain k =>
    simp only [Op.costs, Except.ok.injEq] at h
    rcases plain_cost version k with ⟨h1, h2⟩ | ⟨n, h1, h2⟩
    · simp [h1] at h; rw [h]; exact .one h2 rfl
    · simp [h1] at h; rw [← h]; exact .fixed n h2
  | field k f =>
    cases k
    case jsonRef => exact (hj f rfl).elim
    case base64Decode =>
      simp only [Op.costs, lengthCosts] at h
      split at h
      · simp at h
      · rename_i v s hs
        rw [hs]
        have hl := lengths_le_one v.src
        rcases h with ⟨h, rfl⟩ | h
        · have h0 : v.src.lengths = [] := by simpa using h
          have := Spec.Cost.length (version := version) (o := .field .base64Decode f)
            (stack := v :: s) 0 (fun n => 1 + Spec.ceilDiv n 16) 0 v rfl rfl
            (fun k hk => by rw [lengthOf_lengths hk] at h0; cases h0)
          exact this
        · have h1 : v.src.lengths.map base64Cost = [c] := by simpa using h
          obtain ⟨x, hx, hxc⟩ : ∃ x, v.src.lengths = [x] ∧ base64Cost x = c := by
            match hl' : v.src.lengths with
            | [] => rw [hl'] at h1; cases h1
            | [x] => rw [hl'] at h1; exact ⟨x, rfl, by simpa using h1⟩
            | x :: y :: r => rw [hl'] at h1; simp at h1
          rw [← hxc, ceilDiv16]
          exact .length 0 (fun n => 1 + Spec.ceilDiv n 16) x v rfl rfl
            (fun k hk => by rw [lengthOf_lengths hk] at hx; cases hx; rfl)
    case ecAdd => exact ec (fun _ => rfl) h
    case ecScalarMul => exact ec (fun _ => rfl) h
    case ecPairingCheck => exact ec (fun _ => rfl) h
    case ecMultiExp => exact ec (fun _ => rfl) h
    case ecSubgroupCheck => exact ec (fun _ => rfl) h
    case ecMapTo => exact ec (fun _ => rfl) h
    case ecdsaVerify =>
      match f with
      | 0 => simp [Op.costs, ecdsaCosts] at h; rw [← h]; exact .fixed _ rfl
      | 1 => simp [Op.costs, ecdsaCosts] at h; rw [← h]; exact .fixed _ rfl
      | f + 2 => simp [Op.costs, ecdsaCosts] at h
    case ecdsaPkDecompress =>
      match f with
      | 0 => simp [Op.costs, ecdsaCosts] at h; rw [← h]; exact .fixed _ rfl
      | 1 => simp [Op.costs, ecdsaCosts] at h; rw [← h]; exact .fixed _ rfl
      | f + 2 => simp [Op.costs, ecdsaCosts] at h
    case ecdsaPkRecover => simp [Op.costs] at h; rw [← h]; exact .fixed _ rfl
    case vrfVerify => simp [Op.costs] at h; rw [← h]; exact .fixed _ rfl
    all_goals (simp [Op.costs] at h; rw [h]; exact .one rfl rfl)
  | _ => simp [Op.costs] at h; rw [h]; exact .one rfl rfl

end Teal
