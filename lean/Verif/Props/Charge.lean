import Verif.Spec.Charge
import Verif.Props.Vm

/-!
# C37: exactly what the debugger charges
-/

namespace Teal
open Teal.Spec

theorem knownLength_iff (s : VmSrc) (n : Nat) : KnownLength s n ↔ s.lengths = [n] := by
  constructor
  · intro h
    induction h with
    | loaded t s n _ ih => simpa [VmSrc.lengths] using ih
    | _ => rfl
  · intro h
    induction s with
    | uint v => cases h; exact .number v
    | sig s => cases h; exact .selector s
    | bytes b => cases h; exact .const b
    | val t s ih => exact .loaded t s n (ih h)
    | _ => cases h

theorem base64Cost_eq (n : Nat) : base64Cost n = ((1 + ceilDiv n 16 : Nat) : Int) := by
  unfold base64Cost ceilDiv
  split <;> omega

theorem jsonCost_eq (n : Nat) : jsonCost n = ((25 + 2 * n / 7 + if 7 ∣ n then 0 else 2 : Nat) : Int) := by
  unfold jsonCost
  by_cases h : 7 ∣ n
  · rw [if_pos h, if_neg (by omega)]; omega
  · rw [if_neg h, if_pos (by omega)]; omega

theorem lengthCosts_charge {version : Nat} {b : VmBranch} {o : Op} {c : Int} {cost : Nat → Int} {f : Nat → Nat}
    (hf : chargeByLength o = some f) (he : ∀ n, cost n = f n)
    (h : (lengthCosts cost b = .ok [] ∧ c = 1) ∨ lengthCosts cost b = .ok [c]) : Charge version o b.stack c := by
  unfold lengthCosts at h
  cases hs : b.stack with
  | nil => rw [hs] at h; simp at h
  | cons v s =>
    rw [hs] at h
    simp only [Except.ok.injEq] at h
    rcases h with ⟨h, rfl⟩ | h
    · refine .unknown f v hf rfl ?_
      rintro ⟨n, hn⟩
      rw [knownLength_iff] at hn
      rw [hn] at h
      cases h
    · have hl := lengths_le_one v.src
      match hls : v.src.lengths with
      | [] => rw [hls] at h; cases h
      | [x] =>
        rw [hls] at h
        simp only [List.map_cons, List.map_nil, List.cons.injEq, and_true] at h
        rw [← h, he]
        exact .known f x v hf rfl ((knownLength_iff _ _).2 hls)
      | x :: y :: r => rw [hls] at hl; simp at hl

theorem costIs_charge {version : Nat} {b : VmBranch} {o : Op} {c : Int} (h : CostIs version b o c) :
    Charge version o b.stack c := by
  cases hf : chargeByLength o with
  | some f =>
    unfold CostIs at h
    unfold chargeByLength at hf
    split at hf
    · exact lengthCosts_charge (f := f) (by rw [← hf]; rfl) (by cases hf; exact base64Cost_eq) h
    · exact lengthCosts_charge (f := f) (by rw [← hf]; rfl) (by cases hf; exact jsonCost_eq) h
    · cases hf
  | none =>
    have hj : ∀ f, o ≠ .field .jsonRef f := by rintro f rfl; cases hf
    cases costIs_spec h hj with
    | fixed n hn => exact .fixed n hn
    | one h1 _ => exact .one h1 hf
    | length d g n v hg hv hk =>
      exfalso
      unfold lengthCost at hg
      split at hg
      · cases hf
      · cases hf
      · cases hg

end Teal

namespace Teal.Props
open Teal Teal.Spec

/-- At most one price is charged. -/
theorem C37_one_price {version : Nat} {o : Op} {stack : List VmValue} {c c' : Int} (h : Charge version o stack c)
    (h' : Charge version o stack c') : c = c' := by
  have fx : ∀ {n f}, fixedCost version o = some n → chargeByLength o = some f → False := by
    intro n f h1 h2
    unfold chargeByLength at h2
    split at h2
    · cases h1
    · cases h1
    · cases h2
  have kn : ∀ {s : VmSrc} {n m : Nat}, KnownLength s n → KnownLength s m → n = m := by
    intro s n m h1 h2
    rw [knownLength_iff] at h1 h2
    rw [h1] at h2
    cases h2
    rfl
  cases h with
  | fixed n h1 =>
    cases h' with
    | fixed m h2 =>
      rw [h1] at h2
      injection h2 with h2
      rw [h2]
    | one h2 _ => rw [h1] at h2; cases h2
    | known f m v h2 _ _ => exact (fx h1 h2).elim
    | unknown f v h2 _ _ => exact (fx h1 h2).elim
  | one h1 h0 =>
    cases h' with
    | fixed m h2 => rw [h1] at h2; cases h2
    | one => rfl
    | known f m v h2 _ _ => rw [h0] at h2; cases h2
    | unknown f v h2 _ _ => rfl
  | known f n v h1 h3 h4 =>
    cases h' with
    | fixed m h2 => exact (fx h2 h1).elim
    | one _ h2 => rw [h1] at h2; cases h2
    | known g m w h2 h5 h6 =>
      rw [h1] at h2; cases h2
      rw [h3] at h5; cases h5
      rw [kn h4 h6]
    | unknown g w h2 h5 h6 => rw [h3] at h5; cases h5; exact (h6 ⟨n, h4⟩).elim
  | unknown f v h1 h3 h4 =>
    cases h' with
    | fixed m h2 => exact (fx h2 h1).elim
    | one _ h2 => rfl
    | known g m w h2 h5 h6 => rw [h3] at h5; cases h5; exact (h4 ⟨m, h6⟩).elim
    | unknown _ _ _ _ _ => rfl

/-- **C37** (exactly).  In every program a step executes the instruction under the selected branch and charges the
price the debugger has for it, or changes neither the history nor the budget. -/
theorem C37_exact {l : List Op} {version : Nat} {v w : Vm} (h : Session l version v)
    {k i : Nat} {b b' : VmBranch} {o : Op} (h1 : v.branch = some k) (h2 : v.branches[k]? = some b)
    (h3 : b.line = some i) (h4 : l[i]? = some o) (hs : v.step = some w) (hb' : w.branches[k]? = some b') :
    (b'.trace = b.trace ++ [o] ∧ ∃ c, Charge version o b.stack c ∧ c ≤ b.budget ∧ b'.budget = b.budget - c) ∨
    (b'.trace = b.trace ∧ b'.budget = b.budget ∧ (w.error ≠ none ∨
      b'.line = none ∧ ∃ c, Charge version o b.stack c ∧ b.budget < c)) := by
  have hv := session_inv h
  obtain ⟨hl, hver⟩ := session_listing h
  have hacts := acts_of_current hv h1 h2 h3 (by rw [hl]; exact h4)
  have uniq : ∀ {k' : Nat} {b0 : VmBranch} {i' : Nat} {o' : Op}, Acts v k' b0 i' o' → k' = k ∧ b0 = b ∧ o' = o := by
    intro k' b0 i' o' ha
    have e := ha.sel
    rw [hacts.sel] at e; cases e
    have e := ha.old
    rw [h2] at e; cases e
    have e := ha.line
    rw [h3] at e; cases e
    have e := ha.op
    rw [hacts.op] at e; cases e
    exact ⟨rfl, rfl, rfl⟩
  have hss := step_spec hv
  rw [hs] at hss
  have acted : b'.trace = b.trace ++ [o] ∧ (∃ c, Charge version o b.stack c ∧ c ≤ b.budget ∧ b'.budget = b.budget - c) ∨
      ∃ b0, v.branches[k]? = some b0 ∧ b' = { b0 with line := b'.line, name := b'.name } := by
    cases step_came hv hs hb' with
    | stayed b0 g1 g2 _ => exact .inr ⟨b0, g1, g2⟩
    | acted b0 i' o' c ha hc g3 _ g5 g6 =>
      obtain ⟨-, rfl, rfl⟩ := uniq ha
      refine .inl ⟨g6, c, hver ▸ costIs_charge hc, ?_, g5⟩
      have := session_budget (.step h hs) b' (List.mem_of_getElem? hb')
      omega
    | forked k0 b0 i' o' c ts t hge =>
      have := (List.getElem?_eq_some_iff.1 h2).1
      omega
  rcases acted with h | ⟨b0, g1, g2⟩
  · exact .inl h
  · rw [h2] at g1; cases g1
    have hsame : b'.trace = b.trace ∧ b'.budget = b.budget := by rw [g2]; exact ⟨rfl, rfl⟩
    generalize hr : some w = r at hss
    cases hss with
    | idle h0 => rw [hacts.sel] at h0; cases h0
    | costErr _ _ => cases hr; exact .inr ⟨hsame.1, hsame.2, .inl (by simp)⟩
    | @poor k' b0 i' o' c ha hc hlt =>
      cases hr
      obtain ⟨rfl, rfl, rfl⟩ := uniq ha
      refine .inr ⟨hsame.1, hsame.2, .inr ⟨?_, c, hver ▸ costIs_charge hc, hlt⟩⟩
      have hk : k' < v.start.branches.length := (List.getElem?_eq_some_iff.1 ha.get).1
      rw [List.getElem?_set_self hk] at hb'
      cases hb'; rfl
    | hang => cases hr
    | fail _ _ _ _ => cases hr; exact .inr ⟨hsame.1, hsame.2, .inl (by simp)⟩
    | @done k' b0 i' o' c m ha hc hle hx =>
      cases hr
      obtain ⟨rfl, rfl, rfl⟩ := uniq ha
      exfalso
      have hf := ha.finished hv hx
      have he := exec_ok rfl hx
      cases finished_origin hv hf hb' with
      | other b0 hne _ _ => exact hne rfl
      | self _ g2 =>
        have : b'.trace = b0.trace ++ [o'] := by
          rw [g2.same]; dsimp only; rw [skipNops_same]; exact he.trace
        rw [hsame.1] at this
        have := congrArg List.length this
        simp at this
      | fork y hge =>
        have := (List.getElem?_eq_some_iff.1 h2).1
        omega

/-- **C37** (exactly, in total).  What a branch has spent is the sum of the debugger's prices of the instructions in
its history. -/
theorem C37_total {l : List Op} {version : Nat} {v : Vm} (h : Session l version v) {b : VmBranch} (hb : b ∈ v.branches) :
    ∃ charges : List (Op × Int), charges.map (·.1) = b.trace ∧
      (∀ x ∈ charges, ∃ stack, Charge version x.1 stack x.2) ∧ b.budget + (charges.map (·.2)).sum = 700 := by
  have key : ∀ {v : Vm} {k i : Nat} {b b' : VmBranch} {o : Op} {c : Int}, v.version = version →
      Acts v k b i o → CostIs v.version b o c → b'.budget = b.budget - c → b'.trace = b.trace ++ [o] →
      (∃ charges : List (Op × Int), charges.map (·.1) = b.trace ∧
        (∀ x ∈ charges, ∃ stack, Charge version x.1 stack x.2) ∧ b.budget + (charges.map (·.2)).sum = 700) →
      (∃ charges : List (Op × Int), charges.map (·.1) = b'.trace ∧
        (∀ x ∈ charges, ∃ stack, Charge version x.1 stack x.2) ∧ b'.budget + (charges.map (·.2)).sum = 700) := by
    rintro v k i b b' o c hver ha hc h5 h6 ⟨cs, g1, g2, g3⟩
    refine ⟨cs ++ [(o, c)], by rw [h6, List.map_append, g1]; rfl, ?_, ?_⟩
    · intro x hx
      rcases List.mem_append.1 hx with hx | hx
      · exact g2 x hx
      · rw [List.mem_singleton.1 hx, ← hver]
        exact ⟨_, costIs_charge hc⟩
    · rw [h5]; simp; omega
  refine session_branches (P := fun b => ∃ charges : List (Op × Int), charges.map (·.1) = b.trace ∧
      (∀ x ∈ charges, ∃ stack, Charge version x.1 stack x.2) ∧ b.budget + (charges.map (·.2)).sum = 700)
    ?_ ?_ h b hb
  · obtain ⟨b, hb, -, -, -, h700, ht⟩ := new_branches l version
    rw [hb]; intro x hx; rw [List.mem_singleton.1 hx, h700, ht]
    exact ⟨[], rfl, by simp, rfl⟩
  · intro v w hv hl hver hp h1 b' hb'
    obtain ⟨j, hj'⟩ := List.mem_iff_getElem?.1 hb'
    cases step_came hv h1 hj' with
    | stayed b h1 h2 _ => rw [h2]; exact hp b (List.mem_of_getElem? h1)
    | acted b i o c ha hc h3 _ h5 h6 => exact key hver ha hc h5 h6 (hp b (List.mem_of_getElem? ha.old))
    | forked k b i o c ts t _ ha hc h3 _ _ _ h5 h6 => exact key hver ha hc h5 h6 (hp b (List.mem_of_getElem? ha.old))

/-- `json_ref` with a key of nine bytes and an object of one: 29, although the object would cost 27. -/
example : ∃ v, Session [.byte b!"o", .byte b!"123456789", .field .jsonRef 0] 7 v ∧ v.branches.map (·.budget) = [700 - 1 - 1 - 29] ∧
    Charge 7 (.field .jsonRef 0) [⟨.bytes, .bytes b!"123456789"⟩, ⟨.bytes, .bytes b!"o"⟩] 29 := by
  obtain ⟨w, hw⟩ := Option.isSome_iff_exists.1 (show
    ((((Vm.new [.byte b!"o", .byte b!"123456789", .field .jsonRef 0] 7).step.bind Vm.step).bind Vm.step)).isSome by decide +kernel)
  refine ⟨w, ?_, ?_, ?_⟩
  rotate_left 2
  · have := Charge.known (version := 7) (o := .field .jsonRef 0)
      (stack := [⟨.bytes, .bytes b!"123456789"⟩, ⟨.bytes, .bytes b!"o"⟩]) _ 9 _ rfl rfl (.const b!"123456789")
    exact this
  · simp only [Option.bind_eq_some_iff] at hw
    obtain ⟨b, ⟨a, h1, h2⟩, h3⟩ := hw
    exact .step (.step (.step .new h1) h2) h3
  · have := congrArg (Option.map fun v : Vm => v.branches.map (·.budget)) hw
    rw [Option.map_some] at this
    exact Option.some.inj (this.symm.trans (by decide +kernel))

end Teal.Props
