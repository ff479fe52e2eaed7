import Verif.Lemmas.VmRun

/-!
# C36, C37, C38, C41: the debugger's machine terminates, accounts for its budget and names its
branches

The executions are those of `Spec.Session`: any sequence of the exported methods on a new machine.
-/

namespace Teal.Props
open Teal.Spec

/-! ## C36 -/

/-- C36: from every state of a session, `Run` returns, provided the program contains no
`dupn 255`. -/
theorem C36_partial {l : List Op} {version : Nat} {v : Vm} (h : Session l version v)
    (hd : ∀ n, .u8 .dupn n ∈ l → n < 255) : ∃ w, v.Runs w := by
  refine runs_exists (session_inv h) ?_ (session_budget h)
  rw [(session_listing h).1]
  exact hd

/-- `Run` has at most one outcome. -/
theorem C36_deterministic {v w u : Vm} (h1 : v.Runs w) (h2 : v.Runs u) : w = u := by
  induction h1 with
  | @stop v h =>
    cases h2 with
    | stop _ => rfl
    | hit g1 g2 _ _ => rcases h with h | h <;> contradiction
    | next g1 g2 _ _ _ => rcases h with h | h <;> contradiction
  | hit g1 g2 g3 g4 =>
    cases h2 with
    | stop h => rcases h with h | h <;> contradiction
    | hit k1 k2 k3 k4 => rw [g3] at k3; cases k3; rfl
    | next k1 k2 k3 k4 _ => rw [g3] at k3; cases k3; contradiction
  | next g1 g2 g3 g4 _ ih =>
    cases h2 with
    | stop h => rcases h with h | h <;> contradiction
    | hit k1 k2 k3 k4 => rw [g3] at k3; cases k3; contradiction
    | next k1 k2 k3 k4 k5 => rw [g3] at k3; cases k3; exact ih k5

/-- An infinite loop, and a loop that doubles the number of branches in every round: the
hypotheses of `C36_partial` hold. -/
example : ∃ w, (Vm.new [.label b!"main", .branch .b b!"main"] 1).Runs w :=
  C36_partial .new (by simp)
example : ∃ w, (Vm.new [.label b!"l", .int 1, .branch .bnz b!"l", .branch .b b!"l"] 1).Runs w :=
  C36_partial .new (by simp)

/-- C36 fails: `int 1; dupn 255` never returns from `Run`, since a loop variable of type `uint8`
never exceeds 255. -/
theorem C36_false : ¬ ∀ (l : List Op) (version : Nat), ∃ w, (Vm.new l version).Runs w := by
  intro h
  obtain ⟨w, hw⟩ := h [.int 1, .u8 .dupn 255] 8
  obtain ⟨v1, h1, h2, h3⟩ : ∃ v1, (Vm.new [.int 1, .u8 .dupn 255] 8).step = some v1 ∧
      (v1.triggered = [] ∧ v1.branch = some 0 ∧ v1.error = none) ∧ v1.step = none := by
    refine ⟨((Vm.new [.int 1, .u8 .dupn 255] 8).step).getD (Vm.new [] 0), ?_, ?_, ?_⟩ <;> decide +kernel
  cases hw with
  | stop h => revert h; decide +kernel
  | hit _ _ g _ => rw [h1] at g; cases g; exact absurd h2.1 (by assumption)
  | next _ _ g _ k =>
    rw [h1] at g; cases g
    cases k with
    | stop h => rcases h with h | h <;> simp [h2] at h
    | hit _ _ g _ => rw [h3] at g; cases g
    | next _ _ g _ k => rw [h3] at g; cases g

/-! ## C37 -/

/-- C37: no budget is negative, and what a branch has spent is the sum of the costs of the
instructions in its history, for programs without `json_ref`. -/
theorem C37_partial {l : List Op} {version : Nat} {v : Vm} (h : Session l version v)
    (hj : ∀ f, .field .jsonRef f ∉ l) {b : VmBranch} (hb : b ∈ v.branches) :
    0 ≤ b.budget ∧ ∃ charges : List (Op × Int), charges.map (·.1) = b.trace ∧
      (∀ x ∈ charges, ∃ stack, Cost version x.1 stack x.2) ∧
      b.budget + (charges.map (·.2)).sum = 700 := by
  refine ⟨session_budget h b hb, ?_⟩
  have key : ∀ {v : Vm} {k i : Nat} {b b' : VmBranch} {o : Op} {c : Int}, v.listing = l → v.version = version →
      Acts v k b i o → CostIs v.version b o c → b'.budget = b.budget - c → b'.trace = b.trace ++ [o] →
      (∃ charges : List (Op × Int), charges.map (·.1) = b.trace ∧
        (∀ x ∈ charges, ∃ stack, Cost version x.1 stack x.2) ∧ b.budget + (charges.map (·.2)).sum = 700) →
      (∃ charges : List (Op × Int), charges.map (·.1) = b'.trace ∧
        (∀ x ∈ charges, ∃ stack, Cost version x.1 stack x.2) ∧ b'.budget + (charges.map (·.2)).sum = 700) := by
    rintro v k i b b' o c hl hver ha hc h5 h6 ⟨cs, g1, g2, g3⟩
    refine ⟨cs ++ [(o, c)], by rw [h6, List.map_append, g1]; rfl, ?_, ?_⟩
    · intro x hx
      rcases List.mem_append.1 hx with hx | hx
      · exact g2 x hx
      · rw [List.mem_singleton.1 hx, ← hver]
        refine ⟨_, costIs_spec hc fun f hf => ?_⟩
        subst hf
        exact hj f (hl ▸ List.mem_of_getElem? ha.op)
    · rw [h5]; simp; omega
  refine session_branches (P := fun b => ∃ charges : List (Op × Int), charges.map (·.1) = b.trace ∧
      (∀ x ∈ charges, ∃ stack, Cost version x.1 stack x.2) ∧ b.budget + (charges.map (·.2)).sum = 700)
    ?_ ?_ h b hb
  · obtain ⟨b, hb, -, -, -, h700, ht⟩ := new_branches l version
    rw [hb]; intro x hx; rw [List.mem_singleton.1 hx, h700, ht]
    exact ⟨[], rfl, by simp, rfl⟩
  · intro v w hv hl hver hp h1 b' hb'
    obtain ⟨j, hj'⟩ := List.mem_iff_getElem?.1 hb'
    cases step_came hv h1 hj' with
    | stayed b h1 h2 _ => rw [h2]; exact hp b (List.mem_of_getElem? h1)
    | acted b i o c ha hc h3 _ h5 h6 =>
      exact key hl hver ha hc h5 h6 (hp b (List.mem_of_getElem? ha.old))
    | forked k b i o c ts t _ ha hc h3 _ _ _ h5 h6 =>
      exact key hl hver ha hc h5 h6 (hp b (List.mem_of_getElem? ha.old))

/-- C37: in a step no branch's budget grows and no branch's history is rewritten. -/
theorem C37_never_grows {l : List Op} {version : Nat} {v w : Vm} (h : Session l version v)
    (hs : v.step = some w) {j : Nat} {b b' : VmBranch} (hb : v.branches[j]? = some b)
    (hb' : w.branches[j]? = some b') : b'.budget ≤ b.budget ∧ b.trace <+: b'.trace := by
  cases step_came (session_inv h) hs hb' with
  | stayed b0 h1 h2 _ => rw [hb] at h1; cases h1; rw [h2]; exact ⟨Int.le_refl _, List.prefix_refl _⟩
  | acted b0 i o c ha hc h3 _ h5 h6 =>
    have h1 := ha.old
    rw [hb] at h1; cases h1
    have := hc.pos
    exact ⟨by omega, by rw [h6]; exact List.prefix_append _ _⟩
  | forked k b0 i o c ts t hge =>
    have := (List.getElem?_eq_some_iff.1 hb).1
    omega

/-- C37: a step executes the instruction under the selected branch and charges its cost, or
changes neither the history nor the budget; for instructions other than `json_ref`. -/
theorem C37_step_partial {l : List Op} {version : Nat} {v w : Vm} (h : Session l version v)
    {k i : Nat} {b b' : VmBranch} {o : Op} (h1 : v.branch = some k) (h2 : v.branches[k]? = some b)
    (h3 : b.line = some i) (h4 : l[i]? = some o) (hj : ∀ f, o ≠ .field .jsonRef f)
    (hs : v.step = some w) (hb' : w.branches[k]? = some b') :
    (b'.trace = b.trace ++ [o] ∧ ∃ c, Cost version o b.stack c ∧ b'.budget = b.budget - c) ∨
    (b'.trace = b.trace ∧ b'.budget = b.budget ∧ (w.error ≠ none ∨
      b'.line = none ∧ ∃ c, Cost version o b.stack c ∧ b.budget < c)) := by
  have hv := session_inv h
  obtain ⟨hl, hver⟩ := session_listing h
  have hacts := acts_of_current hv h1 h2 h3 (by rw [hl]; exact h4)
  have uniq : ∀ {k' : Nat} {b0 : VmBranch} {i' : Nat} {o' : Op}, Acts v k' b0 i' o' → k' = k ∧ b0 = b ∧ o' = o := by
    intro k' b0 i' o' ha
    have e := ha.sel
    rw [hacts.sel] at e; cases e
    have e := ha.old
    rw [h2] at e; cases e
    have e := ha.line
    rw [h3] at e; cases e
    have e := ha.op
    rw [hacts.op] at e; cases e
    exact ⟨rfl, rfl, rfl⟩
  have hss := step_spec hv
  rw [hs] at hss
  have acted : b'.trace = b.trace ++ [o] ∧ (∃ c, Cost version o b.stack c ∧ b'.budget = b.budget - c) ∨ ∃ b0, v.branches[k]? = some b0 ∧ b' = { b0 with line := b'.line, name := b'.name } := by
    cases step_came hv hs hb' with
    | stayed b0 g1 g2 _ => exact .inr ⟨b0, g1, g2⟩
    | acted b0 i' o' c ha hc g3 _ g5 g6 =>
      obtain ⟨-, rfl, rfl⟩ := uniq ha
      exact .inl ⟨g6, c, hver ▸ costIs_spec hc hj, g5⟩
    | forked k0 b0 i' o' c ts t hge =>
      have := (List.getElem?_eq_some_iff.1 h2).1
      omega
  rcases acted with h | ⟨b0, g1, g2⟩
  · exact .inl h
  · rw [h2] at g1; cases g1
    have hsame : b'.trace = b.trace ∧ b'.budget = b.budget := by rw [g2]; exact ⟨rfl, rfl⟩
    generalize hr : some w = r at hss
    cases hss with
    | idle h0 => rw [hacts.sel] at h0; cases h0
    | costErr _ _ => cases hr; exact .inr ⟨hsame.1, hsame.2, .inl (by simp)⟩
    | @poor k' b0 i' o' c ha hc hlt =>
      cases hr
      obtain ⟨rfl, rfl, rfl⟩ := uniq ha
      refine .inr ⟨hsame.1, hsame.2, .inr ⟨?_, c, hver ▸ costIs_spec hc hj, hlt⟩⟩
      have hk : k' < v.start.branches.length := (List.getElem?_eq_some_iff.1 ha.get).1
      rw [List.getElem?_set_self hk] at hb'
      cases hb'; rfl
    | hang => cases hr
    | fail _ _ _ _ => cases hr; exact .inr ⟨hsame.1, hsame.2, .inl (by simp)⟩
    | @done k' b0 i' o' c m ha hc hle hx =>
      cases hr
      obtain ⟨rfl, rfl, rfl⟩ := uniq ha
      exfalso
      have hf := ha.finished hv hx
      have he := exec_ok rfl hx
      cases finished_origin hv hf hb' with
      | other b0 hne _ _ => exact hne rfl
      | self _ g2 =>
        have : b'.trace = b0.trace ++ [o'] := by
          rw [g2.same]; dsimp only; rw [skipNops_same]; exact he.trace
        rw [hsame.1] at this
        have := congrArg List.length this
        simp at this
      | fork y hge =>
        have := (List.getElem?_eq_some_iff.1 h2).1
        omega

/-- Two branches with different costs behind them. -/
example : ∃ v, Session [.int 1, .branch .bnz b!"x", .byte b!"a", .plain .sha256, .label b!"x"] 2 v ∧
    v.branches.map (·.budget) = [662, 698] := by
  obtain ⟨w, hw⟩ := Option.isSome_iff_exists.1 (show
    (((((Vm.new [.int 1, .branch .bnz b!"x", .byte b!"a", .plain .sha256, .label b!"x"] 2).step.bind
      Vm.step).bind Vm.step).bind Vm.step)).isSome by decide +kernel)
  refine ⟨w, ?_, ?_⟩
  · simp only [Option.bind_eq_some_iff] at hw
    obtain ⟨c, ⟨b, ⟨a, h1, h2⟩, h3⟩, h4⟩ := hw
    exact .step (.step (.step (.step .new h1) h2) h3) h4
  · have : (((((Vm.new [.int 1, .branch .bnz b!"x", .byte b!"a", .plain .sha256, .label b!"x"] 2).step.bind
      Vm.step).bind Vm.step).bind Vm.step)).map (fun v => v.branches.map (·.budget)) = some [662, 698] := by
      decide +kernel
    rw [hw] at this
    simpa using this

/-- C37 fails for `json_ref`: a key of four bytes for an empty object is charged 28, while the
AVM's costs of `json_ref` are odd (25 plus 2 for every 7 bytes of the object). -/
theorem C37_false : ¬ ∀ (l : List Op) (version : Nat) (v : Vm), Session l version v →
    ∀ b ∈ v.branches, ∃ charges : List (Op × Int), charges.map (·.1) = b.trace ∧
      (∀ x ∈ charges, ∃ stack, Cost version x.1 stack x.2) ∧
      b.budget + (charges.map (·.2)).sum = 700 := by
  intro h
  obtain ⟨w, hw⟩ := Option.isSome_iff_exists.1 (show
    ((((Vm.new [.byte b!"", .byte b!"name", .field .jsonRef 0] 7).step.bind
      Vm.step).bind Vm.step)).isSome by decide +kernel)
  have hses : Session [.byte b!"", .byte b!"name", .field .jsonRef 0] 7 w := by
    simp only [Option.bind_eq_some_iff] at hw
    obtain ⟨b, ⟨a, h1, h2⟩, h3⟩ := hw
    exact .step (.step (.step .new h1) h2) h3
  have hbr : ((((Vm.new [.byte b!"", .byte b!"name", .field .jsonRef 0] 7).step.bind
      Vm.step).bind Vm.step)).map (fun v => v.branches.map fun b => (b.budget, b.trace)) =
        some [(670, [.byte b!"", .byte b!"name", .field .jsonRef 0])] := by decide +kernel
  rw [hw] at hbr
  simp only [Option.map_some, Option.some.injEq] at hbr
  obtain ⟨b, bs, hbs⟩ : ∃ b bs, w.branches = b :: bs := by
    cases hbs : w.branches with
    | nil => rw [hbs] at hbr; cases hbr
    | cons b bs => exact ⟨b, bs, rfl⟩
  rw [hbs] at hbr
  simp only [List.map_cons, List.cons.injEq, Prod.mk.injEq] at hbr
  obtain ⟨⟨hbud, htr⟩, -⟩ := hbr
  obtain ⟨cs, g1, g2, g3⟩ := h _ _ w hses b (by rw [hbs]; simp)
  rw [htr] at g1
  match cs, g1 with
  | [(o1, c1), (o2, c2), (o3, c3)], g1 =>
    simp only [List.map_cons, List.map_nil, List.cons.injEq, and_true] at g1
    obtain ⟨rfl, rfl, rfl⟩ := g1
    have e : ∀ {s : Bytes} {stack : List VmValue} {c : Int}, Cost 7 (.byte s) stack c → c = 1 := by
      intro s stack c hc
      cases hc with
      | fixed n h => cases h
      | one _ _ => rfl
      | length d f n v h => cases h
    obtain ⟨s1, k1⟩ := g2 _ (List.mem_cons_self)
    obtain ⟨s2, k2⟩ := g2 _ (List.mem_cons_of_mem _ List.mem_cons_self)
    obtain ⟨s3, k3⟩ := g2 _ (List.mem_cons_of_mem _ (List.mem_cons_of_mem _ List.mem_cons_self))
    have e1 : c1 = 1 := e k1
    have e2 : c2 = 1 := e k2
    simp at g3
    cases k3 with
    | fixed n h => cases h
    | one _ h => cases h
    | length d f n v h =>
      cases h
      have g4 : b.budget + (c1 + (c2 + ((25 + 2 * ceilDiv n 7 : Nat) : Int))) = 700 := g3
      omega

/-! ## C38 -/

/-- C38: a step always returns, whatever the program and the state, if the program contains no
`dupn 255`. -/
theorem C38_step_partial {l : List Op} {version : Nat} {v : Vm} (h : Session l version v)
    (hd : ∀ n, .u8 .dupn n ∈ l → n < 255) : ∃ w, v.step = some w := by
  refine step_returns (session_inv h) ?_
  rw [(session_listing h).1]
  exact hd

/-- C38: a reported error stops `Run`. -/
theorem C38_error_stops {v w : Vm} (he : v.error ≠ none) (h : v.Runs w) : w = v := by
  cases h with
  | stop _ => rfl
  | hit _ g _ _ => exact absurd g he
  | next _ g _ _ _ => exact absurd g he

/-- C38: lines that are not negative never crash `SetBreakpoints`. -/
theorem C38_breakpoints_partial (v : Vm) (lns : List Int) (h : ∀ ln ∈ lns, 0 ≤ ln) :
    ∃ w, v.setBreakpoints lns = some w := by
  unfold Vm.setBreakpoints
  suffices h' : ∃ bps, Vm.checkBreakpoints v.listing lns = some bps by
    obtain ⟨bps, hb⟩ := h'
    exact ⟨_, by rw [hb]; rfl⟩
  induction lns with
  | nil => exact ⟨[], rfl⟩
  | cons ln lns ih =>
    obtain ⟨bps, hb⟩ := ih fun x hx => h x (by simp [hx])
    have h0 := h ln (by simp)
    unfold Vm.checkBreakpoints
    split
    · exact ⟨bps, hb⟩
    · rename_i hlt
      rw [if_neg (by omega), List.getElem?_eq_getElem (by omega), hb]
      exact ⟨_, rfl⟩

/-- The machine reports the empty stack, and the error stops `Run`. -/
example : ((Vm.new [.plain .pop] 1).step).map (·.error) = some (some (.emptyStack .any)) := by
  decide +kernel

/-- C38 fails: stepping over `dupn 255` never returns. -/
theorem C38_false : ¬ ∀ (l : List Op) (version : Nat) (v : Vm), Session l version v →
    ∃ w, v.step = some w := by
  intro h
  obtain ⟨w, hw⟩ := Option.isSome_iff_exists.1 (show
    ((Vm.new [.int 1, .u8 .dupn 255] 8).step).isSome by decide +kernel)
  obtain ⟨u, hu⟩ := h _ _ w (.step .new hw)
  have : (Vm.new [.int 1, .u8 .dupn 255] 8).step.bind Vm.step = none := by decide +kernel
  rw [hw] at this
  rw [Option.bind_some, hu] at this
  cases this

/-- C38 fails: a negative line number crashes `SetBreakpoints`. -/
theorem C38_breakpoints_false : ¬ ∀ (v : Vm) (lns : List Int), ∃ w, v.setBreakpoints lns = some w := by
  intro h
  obtain ⟨w, hw⟩ := h (Vm.new [.int 1] 1) [-1]
  have : ((Vm.new [.int 1] 1).setBreakpoints [-1]) = none := by decide +kernel
  rw [this] at hw; cases hw

/-! ## C41 -/

/-- C41: the branch created as the `i`-th has identifier `i`, at any time of a session. -/
theorem C41 {l : List Op} {version : Nat} {v : Vm} (h : Session l version v) (i : Nat) (b : VmBranch)
    (hb : v.branches[i]? = some b) : b.id = i :=
  (session_inv h).ids i b hb

/-- C41: no two branches have the same identifier. -/
theorem C41_unique {l : List Op} {version : Nat} {v : Vm} (h : Session l version v) :
    (v.branches.map (·.id)).Nodup := by
  have : v.branches.map (·.id) = List.range v.branches.length := by
    apply List.ext_getElem (by simp)
    intro i h1 h2
    simp only [List.length_map] at h1
    rw [List.getElem_map, List.getElem_range]
    exact (session_inv h).ids i _ (List.getElem?_eq_getElem h1)
  rw [this]
  exact List.nodup_range

/-- C41: a step never drops or renames a branch; new branches come behind the old ones. -/
theorem C41_step {l : List Op} {version : Nat} {v w : Vm} (h : Session l version v)
    (hs : v.step = some w) : v.branches.map (·.id) <+: w.branches.map (·.id) := by
  have hlen : v.branches.length ≤ w.branches.length := by
    have hv := session_inv h
    have hss := step_spec hv
    rw [hs] at hss
    generalize hr : some w = r at hss
    have e := (start_retired hv).1
    cases hss with
    | idle _ => cases hr; omega
    | costErr _ _ => cases hr; exact Nat.le_of_eq e.symm
    | poor _ _ _ => cases hr; simp only [List.length_set]; omega
    | hang => cases hr
    | fail _ _ _ _ => cases hr; simp only [Vm.writeBack, List.length_append, List.length_set]; omega
    | done ha _ _ hx =>
      cases hr
      rw [(ha.finished hv hx).branches.1, List.length_append, List.length_set]; omega
  have e : ∀ {u : Vm}, Session l version u → u.branches.map (·.id) = List.range u.branches.length := by
    intro u hu
    apply List.ext_getElem (by simp)
    intro i h1 h2
    simp only [List.length_map] at h1
    rw [List.getElem_map, List.getElem_range]
    exact (session_inv hu).ids i _ (List.getElem?_eq_getElem h1)
  rw [e h, e (.step h hs)]
  obtain ⟨d, hd⟩ := Nat.le.dest hlen
  rw [← hd, List.range_add]
  exact List.prefix_append _ _

/-- C41: switching to the identifier of a branch selects that branch and changes nothing else. -/
theorem C41_switch {l : List Op} {version : Nat} {v : Vm} (h : Session l version v) {i : Nat}
    {b : VmBranch} (hb : v.branches[i]? = some b) :
    v.switch b.id = { v with branch := some i, current := i } := by
  have hid := (session_inv h).ids i b hb
  unfold Vm.switch
  have : (v.branches.findIdx? fun x => x.id == b.id) = some i := by
    rw [List.findIdx?_eq_some_iff_getElem]
    obtain ⟨hi, rfl⟩ := List.getElem?_eq_some_iff.1 hb
    refine ⟨hi, by simp, ?_⟩
    intro j hj
    have := (session_inv h).ids j _ (List.getElem?_eq_getElem (Nat.lt_trans hj hi))
    simp only [this, hid, beq_iff_eq]; omega
  rw [this]

/-- C41: switching to an identifier no branch has changes nothing. -/
theorem C41_switch_unknown (v : Vm) (id : Nat) (h : ∀ b ∈ v.branches, b.id ≠ id) : v.switch id = v := by
  unfold Vm.switch
  have : (v.branches.findIdx? fun x => x.id == id) = none := by
    rw [List.findIdx?_eq_none_iff]
    intro x hx
    simpa using h x hx
  rw [this]

/-- A session with three branches. -/
example : ((Vm.new [.int 1, .switch [b!"x", b!"x"], .label b!"x"] 8).step.bind Vm.step).map
    (fun v => (v.branches.map (·.id), (v.switch 1).current)) = some ([0, 1, 2], 1) := by decide +kernel

end Teal.Props
