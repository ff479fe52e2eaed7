import Verif.Lemmas.VmEffect
import Verif.Lemmas.VmFlow

/-!
# C43, C44: what instructions do to the stack
-/

namespace Teal.Props
open Teal.Spec

/-- The step acts on the selected branch. -/
theorem selected_acts {v : Vm} (hv : Inv v) {k i : Nat} {b : VmBranch} {o : Op} (hs : Selected v k b i o) :
    Acts v k b i o ∧ ∀ {k' i' b' o'}, Acts v k' b' i' o' → k' = k ∧ b' = b ∧ i' = i ∧ o' = o := by
  have ha := acts_of_current hv hs.branch hs.get hs.line hs.op
  refine ⟨ha, fun ha' => ?_⟩
  have e := ha'.sel
  rw [ha.sel] at e; cases e
  have e := ha'.old
  rw [hs.get] at e; cases e
  have e := ha'.line
  rw [hs.line] at e; cases e
  have e := ha'.op
  rw [ha.op] at e; cases e
  exact ⟨rfl, rfl, rfl, rfl⟩

/-- The ways a step on the selected branch can end. -/
theorem selected_step {v w : Vm} (hv : Inv v) {k i : Nat} {b b' : VmBranch} {o : Op} (hs : Selected v k b i o)
    (h : v.step = some w) (hb' : w.branches[k]? = some b') :
    (w.error ≠ none ∧ ∃ e, o.costs v.version b = .error e) ∨
    (w.error = none ∧ b' = b.exit ∧ ∃ c, CostIs v.version b o c ∧ b.budget < c) ∨
    (∃ c e m, CostIs v.version b o c ∧ w.error ≠ none ∧ v.executeOp o (v.mach b o c) = .panic e m) ∨
    (∃ c m, CostIs v.version b o c ∧ w.error = none ∧ v.executeOp o (v.mach b o c) = .ok () m ∧
      b'.stack = m.br.stack ∧ b'.trace = b.trace ++ [o]) := by
  obtain ⟨hacts, uniq⟩ := selected_acts hv hs
  have hspec := step_spec hv
  rw [h] at hspec
  generalize hr : some w = r at hspec
  cases hspec with
  | idle h0 => rw [hacts.sel] at h0; cases h0
  | @costErr k' b0 i' o' e ha he =>
    cases hr
    obtain ⟨rfl, rfl, rfl, rfl⟩ := uniq ha
    exact .inl ⟨by simp, e, he⟩
  | @poor k' b0 i' o' c ha hc hlt =>
    cases hr
    obtain ⟨rfl, rfl, rfl, rfl⟩ := uniq ha
    have hk : k' < v.start.branches.length := (List.getElem?_eq_some_iff.1 ha.get).1
    simp only [List.getElem?_set_self hk, Option.some.injEq] at hb'
    exact .inr (.inl ⟨start_error hv, hb'.symm, c, hc, hlt⟩)
  | hang => cases hr
  | @fail k' b0 i' o' c e m ha hc hle hx =>
    cases hr
    obtain ⟨rfl, rfl, rfl, rfl⟩ := uniq ha
    exact .inr (.inr (.inl ⟨c, e, m, hc, by simp, hx⟩))
  | @done k' b0 i' o' c m ha hc hle hx =>
    cases hr
    obtain ⟨rfl, rfl, rfl, rfl⟩ := uniq ha
    have hf := ha.finished hv hx
    have he := exec_ok rfl hx
    refine .inr (.inr (.inr ⟨c, m, hc, hf.error, hx, ?_⟩))
    have hk : k' < v.start.branches.length := (List.getElem?_eq_some_iff.1 ha.get).1
    have hret := hf.branches.2 k' _ b' (by
      rw [List.getElem?_append_left (by rw [List.length_set]; exact hk), List.getElem?_set_self hk]) hb'
    constructor
    · rw [hret.same]; dsimp only; rw [skipNops_same]
    · rw [hret.same]; dsimp only; rw [skipNops_same]; exact he.trace

/-! ## C44 -/

/-- C44: an instruction fails exactly when the stack is too short or an operand has the wrong
type, and the machine then stops with an error; except when it is out of budget, for the
instructions listed in `WrongOperands`, and for `dig` on a stack of more than 256 values. -/
theorem C44_partial {l : List Op} {version : Nat} {v w : Vm} (h : Session l version v) {k i : Nat}
    {b b' : VmBranch} {o : Op} (hs : Selected v k b i o) {args rets : List StackType}
    (he : effect o = some (args, rets)) (hr : OperandInRange o) (hw : ¬ WrongOperands o)
    (hd : ∀ n, o = .u8 .dupn n → n < 255) (hl : ∀ n, o = .u8 .dig n → b.stack.length ≤ 256)
    (hstep : v.step = some w) (hb' : w.branches[k]? = some b')
    (hpaid : ¬ ∃ c, Cost version o b.stack c ∧ b.budget < c) (hj : ∀ f, o ≠ .field .jsonRef f) :
    w.error ≠ none ↔ ¬ StackFits args b.stack := by
  have hv := session_inv h
  obtain ⟨-, hver⟩ := session_listing h
  have eff : ∀ c, ∃ outs, EffAt (v.executeOp o) args.reverse outs (v.mach b o c) ∧ (¬ WrongResults o → outs = rets) :=
    fun c => executeOp_eff v he hr hw hd (v.mach b o c) hv.scratch hl
  rcases selected_step hv hs hstep hb' with ⟨h1, e, h2⟩ | ⟨h1, -, c, hc, hlt⟩ | ⟨c, e, m, -, h1, h2⟩ | ⟨c, m, -, h1, h2, -⟩
  · exact ⟨fun _ => costs_error he hr h2, fun _ => h1⟩
  · exact absurd ⟨c, hver ▸ costIs_spec hc hj, hlt⟩ hpaid
  · refine ⟨fun _ hf => ?_, fun _ => h1⟩
    obtain ⟨outs, heff, -⟩ := eff c
    obtain ⟨vs, m', h3, -⟩ := heff.1 ((fits_iff _ _).1 hf)
    rw [h2] at h3; cases h3
  · refine ⟨fun hn => absurd h1 hn, fun hf => ?_⟩
    obtain ⟨outs, heff, -⟩ := eff c
    obtain ⟨e, m', h3⟩ := heff.2 (fun h' => hf ((fits_iff _ _).2 h'))
    rw [h2] at h3; cases h3

/-- C44: for every instruction in range, failing means that an operand is missing or of the wrong
type (`json_ref` and instructions out of budget included). -/
theorem C44_error_partial {l : List Op} {version : Nat} {v w : Vm} (h : Session l version v) {k i : Nat}
    {b b' : VmBranch} {o : Op} (hs : Selected v k b i o) {args rets : List StackType}
    (he : effect o = some (args, rets)) (hr : OperandInRange o) (hw : ¬ WrongOperands o)
    (hd : ∀ n, o = .u8 .dupn n → n < 255) (hl : ∀ n, o = .u8 .dig n → b.stack.length ≤ 256)
    (hstep : v.step = some w) (hb' : w.branches[k]? = some b') (herr : w.error ≠ none) :
    ¬ StackFits args b.stack := by
  have hv := session_inv h
  rcases selected_step hv hs hstep hb' with ⟨-, e, h2⟩ | ⟨h1, -⟩ | ⟨c, e, m, -, h1, h2⟩ | ⟨c, m, -, h1, h2, -⟩
  · exact costs_error he hr h2
  · exact absurd h1 herr
  · intro hf
    obtain ⟨outs, heff, -⟩ := executeOp_eff v he hr hw hd (v.mach b o c) hv.scratch hl
    obtain ⟨vs, m', h3, -⟩ := heff.1 ((fits_iff _ _).1 hf)
    rw [h2] at h3; cases h3
  · exact absurd h1 herr

/-- C44: an instruction that was executed replaced its operands by its results, of the types of
the table. -/
theorem C44_results_partial {l : List Op} {version : Nat} {v w : Vm} (h : Session l version v) {k i : Nat}
    {b b' : VmBranch} {o : Op} (hs : Selected v k b i o) {args rets : List StackType}
    (he : effect o = some (args, rets)) (hr : OperandInRange o) (hw : ¬ WrongResults o)
    (hd : ∀ n, o = .u8 .dupn n → n < 255) (hl : ∀ n, o = .u8 .dig n → b.stack.length ≤ 256)
    (hstep : v.step = some w) (hb' : w.branches[k]? = some b') (herr : w.error = none)
    (hx : b'.trace ≠ b.trace) :
    StackFits args b.stack ∧ ∃ vs, Results rets vs ∧ b'.stack = vs ++ b.stack.drop args.length := by
  have hv := session_inv h
  rcases selected_step hv hs hstep hb' with ⟨h1, -⟩ | ⟨h1, rfl, -⟩ | ⟨c, e, m, -, h1, h2⟩ | ⟨c, m, -, h1, h2, h3, -⟩
  · exact absurd herr h1
  · exact absurd rfl hx
  · exact absurd herr h1
  · obtain ⟨outs, heff, ho⟩ := executeOp_eff v he hr (fun h' => hw (.operands o h')) hd (v.mach b o c) hv.scratch hl
    have hfit : FitsTop args.reverse b.stack := by
      refine Classical.byContradiction fun hn => ?_
      obtain ⟨e, m', h4⟩ := heff.2 hn
      rw [h2] at h4; cases h4
    obtain ⟨vs, m', h4, h5, h6⟩ := heff.1 hfit
    rw [h2] at h4; cases h4
    refine ⟨(fits_iff _ _).2 hfit, vs, ho hw ▸ h6, ?_⟩
    rw [h3, h5, List.length_reverse]; rfl

/-- The state after `n` steps. -/
def after (l : List Op) (version : Nat) : Nat → Option Vm
  | 0 => some (Vm.new l version)
  | n + 1 => (after l version n).bind Vm.step

theorem after_session {l : List Op} {version : Nat} : ∀ {n : Nat} {v : Vm}, after l version n = some v →
    Session l version v := by
  intro n
  induction n with
  | zero => intro v h; cases h; exact .new
  | succ n ih =>
    intro v h
    obtain ⟨u, h1, h2⟩ := Option.bind_eq_some_iff.1 h
    exact .step (ih h1) h2

/-- The selected branch of a machine, its line and instruction. -/
def selection (v : Vm) : Option (Nat × VmBranch × Nat × Op) := do
  let k ← v.branch
  let b ← v.branches[k]?
  let i ← b.line
  let o ← v.listing[i]?
  pure (k, b, i, o)

theorem selection_selected {v : Vm} {k i : Nat} {b : VmBranch} {o : Op} (h : selection v = some (k, b, i, o)) :
    Selected v k b i o := by
  simp only [selection, bind, Option.bind_eq_some_iff] at h
  obtain ⟨k', h1, b', h2, i', h3, o', h4, h5⟩ := h
  cases h5
  exact ⟨h1, h2, h3, h4⟩

/-- What a step from the state after `n` steps does: whether it fails, and the stacks before and
after. -/
def outcome (l : List Op) (version n : Nat) : Option (Op × Bool × List VmValue × List VmValue) := do
  let v ← after l version n
  let (k, b, _, o) ← selection v
  let w ← v.step
  let b' ← w.branches[k]?
  pure (o, w.error.isSome, b.stack, b'.stack)

theorem outcome_step {l : List Op} {version n : Nat} {o : Op} {e : Bool} {s s' : List VmValue}
    (h : outcome l version n = some (o, e, s, s')) : ∃ v k b i w b', Session l version v ∧ Selected v k b i o ∧
      v.step = some w ∧ w.branches[k]? = some b' ∧ (e = true ↔ w.error ≠ none) ∧ b.stack = s ∧ b'.stack = s' := by
  simp only [outcome, bind, Option.bind_eq_some_iff] at h
  obtain ⟨v, h1, ⟨k, b, i, o'⟩, h2, w, h3, b', h4, h5⟩ := h
  cases h5
  exact ⟨v, k, b, i, w, b', after_session h1, selection_selected h2, h3, h4, Option.isSome_iff_ne_none, rfl, rfl⟩

/-- A program in which the hypotheses of `C44_partial` hold and `+` fails, because of a byte
string; one in which it does not; and the results. -/
example : ∃ v k b i w b', Session [.int 1, .byte b!"x", .plain .plus] 8 v ∧ Selected v k b i (.plain .plus) ∧
    v.step = some w ∧ w.branches[k]? = some b' ∧ w.error ≠ none := by
  obtain ⟨v, k, b, i, w, b', h1, h2, h3, h4, h5, -⟩ := outcome_step (n := 2) (l := [.int 1, .byte b!"x", .plain .plus])
    (version := 8) (o := .plain .plus) (e := true) (s := [⟨.bytes, .bytes b!"x"⟩, ⟨.uint64, .uint 1⟩]) (s' := [⟨.bytes, .bytes b!"x"⟩, ⟨.uint64, .uint 1⟩])
    (by decide +kernel)
  exact ⟨v, k, b, i, w, b', h1, h2, h3, h4, h5.1 rfl⟩
example : outcome [.int 1, .int 2, .plain .addw] 8 2 =
    some (.plain .addw, false, [⟨.uint64, .uint 2⟩, ⟨.uint64, .uint 1⟩], [⟨.uint64, .none⟩, ⟨.uint64, .none⟩]) := by
  decide +kernel
example : effect (.plain .addw) = some ([.uint64, .uint64], [.uint64, .uint64]) := rfl

/-- C44 fails for instructions that expect the wrong operands: `bitlen` rejects an integer. -/
theorem C44_false : ∃ (l : List Op) (version : Nat) (v w : Vm) (k i : Nat) (b : VmBranch) (o : Op)
    (args rets : List StackType), Session l version v ∧ Selected v k b i o ∧ effect o = some (args, rets) ∧
    StackFits args b.stack ∧ v.step = some w ∧ w.error ≠ none := by
  obtain ⟨v, k, b, i, w, b', h1, h2, h3, h4, h5, h6, -⟩ := outcome_step (n := 1) (l := [.int 1, .plain .bitlen])
    (version := 8) (o := .plain .bitlen) (e := true) (s := [⟨.uint64, .uint 1⟩]) (s' := [⟨.uint64, .uint 1⟩])
    (by decide +kernel)
  refine ⟨_, _, v, w, k, i, b, _, _, _, h1, h2, rfl, ?_, h3, h5.1 rfl⟩
  rw [h6, fits_iff]
  exact ⟨.inl rfl, trivial⟩

/-- C44 fails for instructions the machine skips: `b-` is accepted on an empty stack. -/
theorem C44_skipped_false : ∃ (l : List Op) (version : Nat) (v w : Vm) (k i : Nat) (b : VmBranch) (o : Op)
    (args rets : List StackType), Session l version v ∧ Selected v k b i o ∧ effect o = some (args, rets) ∧
    ¬ StackFits args b.stack ∧ v.step = some w ∧ w.error = none := by
  obtain ⟨v, k, b, i, w, b', h1, h2, h3, h4, h5, h6, -⟩ := outcome_step (n := 0) (l := [.plain .bminus])
    (version := 8) (o := .plain .bminus) (e := false) (s := []) (s' := []) (by decide +kernel)
  refine ⟨_, _, v, w, k, i, b, _, _, _, h1, h2, rfl, ?_, h3, ?_⟩
  · rw [h6]; rintro ⟨h, -⟩; simp at h
  · exact Classical.byContradiction fun hn => by simpa using h5.2 hn

/-- C44 fails for the results of some instructions: `pushints` leaves a byte string. -/
theorem C44_results_false : ∃ (l : List Op) (version : Nat) (v w : Vm) (k i : Nat) (b b' : VmBranch) (o : Op)
    (args rets : List StackType), Session l version v ∧ Selected v k b i o ∧ effect o = some (args, rets) ∧
    v.step = some w ∧ w.error = none ∧ w.branches[k]? = some b' ∧
    ¬ ∃ vs, Results rets vs ∧ b'.stack = vs ++ b.stack.drop args.length := by
  obtain ⟨v, k, b, i, w, b', h1, h2, h3, h4, h5, h6, h7⟩ := outcome_step (n := 0) (l := [.pushints [7]])
    (version := 8) (o := .pushints [7]) (e := false) (s := []) (s' := [⟨.bytes, .none⟩]) (by decide +kernel)
  refine ⟨_, _, v, w, k, i, b, b', _, _, _, h1, h2, rfl, h3, ?_, h4, ?_⟩
  · exact Classical.byContradiction fun hn => by simpa using h5.2 hn
  · rintro ⟨vs, hr, hvs⟩
    rw [h6, h7] at hvs
    have hvs' : vs = [⟨.bytes, .none⟩] := by simpa using hvs.symm
    subst hvs'
    rcases hr.2 0 .uint64 _ rfl rfl with h | h <;> cases h

/-! ## C43 -/

/-- A step on the selected branch whose instruction succeeds. -/
theorem selected_ok {v : Vm} (hv : Inv v) {k i : Nat} {b : VmBranch} {o : Op} (hs : Selected v k b i o) {c : Int}
    (hc : CostIs v.version b o c) (hle : c ≤ b.budget) {m : Mach} (hx : v.executeOp o (v.mach b o c) = .ok () m) :
    ∃ w b', v.step = some w ∧ w.error = none ∧ w.branches[k]? = some b' ∧ b'.stack = m.br.stack := by
  obtain ⟨hacts, uniq⟩ := selected_acts hv hs
  cases hstep : v.step with
  | none =>
    have hspec := step_spec hv
    rw [hstep] at hspec
    generalize hr : (none : Option Vm) = r at hspec
    cases hspec with
    | @hang k' b0 i' o' c' ha hc' _ hh =>
      obtain ⟨rfl, rfl, rfl, rfl⟩ := uniq ha
      obtain rfl := CostIs.unique hc hc'
      rw [hx] at hh; cases hh
    | _ => cases hr
  | some w =>
    have hlen : k < w.branches.length := by
      obtain ⟨b0, hb0⟩ := step_grows hv hstep hs.get
      exact (List.getElem?_eq_some_iff.1 hb0).1
    refine ⟨w, w.branches[k], rfl, ?_⟩
    have hb' := List.getElem?_eq_getElem hlen
    rcases selected_step hv hs hstep hb' with ⟨-, e, h2⟩ | ⟨h1, -, c', hc', hlt⟩ | ⟨c', e, m', hc', -, h2⟩ | ⟨c', m', hc', h1, h2, h3, -⟩
    · rcases hc with ⟨h, -⟩ | h <;> rw [h2] at h <;> cases h
    · obtain rfl := CostIs.unique hc hc'
      omega
    · obtain rfl := CostIs.unique hc hc'
      rw [hx] at h2; cases h2
    · obtain rfl := CostIs.unique hc hc'
      rw [hx] at h2; cases h2
      exact ⟨h1, hb', h3⟩

/-- C43: the instructions that rearrange the stack do what the AVM's reference says, whenever it
gives them a meaning; except `dup2`, `bury` unless the value to replace is as far from the bottom
as from the top, `dig` on a stack of more than 256 values, and `dupn 255`. -/
theorem C43_partial {l : List Op} {version : Nat} {v : Vm} (h : Session l version v) {k i : Nat}
    {b : VmBranch} {o : Op} (hs : Selected v k b i o) {stack' : List VmValue}
    (hr : Rearranges o b.stack stack') (hbudget : 1 ≤ b.budget) (h2 : o ≠ .plain .dup2)
    (hbury : ∀ n, o = .u8 .bury n → b.stack.length = 2 * n + 1)
    (hdig : ∀ n, o = .u8 .dig n → b.stack.length ≤ 256) (hdupn : ∀ n, o = .u8 .dupn n → n < 255) :
    ∃ w b', v.step = some w ∧ w.error = none ∧ w.branches[k]? = some b' ∧ b'.stack = stack' := by
  have hv := session_inv h
  have key : ∀ m, CostIs v.version b o 1 → v.executeOp o (v.mach b o 1) = .ok () m → m.br.stack = stack' →
      ∃ w b', v.step = some w ∧ w.error = none ∧ w.branches[k]? = some b' ∧ b'.stack = stack' := by
    rintro m hc hx rfl
    exact selected_ok hv hs hc hbudget hx
  have hst : (v.mach b o 1).br.stack = b.stack := rfl
  generalize hbs : b.stack = stack at hr hst
  cases hr with
  | swap a b' s => exact key _ (.inl ⟨rfl, rfl⟩) (swap_ok hst) rfl
  | dup a s => exact key _ (.inl ⟨rfl, rfl⟩) (dup_ok hst) rfl
  | dup2 => exact absurd rfl h2
  | dig n a s ha =>
    refine key _ (.inl ⟨rfl, rfl⟩) (dig_ok (m := v.mach b _ 1) (by rw [hst]; exact ha) (hdig n rfl)) ?_
    show _ :: b.stack = _
    rw [hbs]
  | cover n a xs s hn =>
    refine key _ (.inl ⟨rfl, rfl⟩) (cover_ok (m := v.mach b _ 1) hst (by simp [hn])) ?_
    subst hn
    show List.take _ _ ++ _ :: List.drop _ _ = _
    simp
  | uncover n a xs s hn =>
    refine key _ (.inl ⟨rfl, rfl⟩) (uncover_ok (m := v.mach b _ 1) (a := a) (by rw [hst, ← hn]; simp)) ?_
    subst hn
    show _ :: (List.take _ b.stack ++ List.drop _ b.stack) = _
    rw [hbs]
    simp [List.drop_append]
  | bury n a xs x s hn =>
    have hlen := hbury n rfl
    rw [hbs] at hlen
    simp at hlen
    refine key _ (.inl ⟨rfl, rfl⟩) (bury_ok (m := v.mach b _ 1) hst (by simp; omega)) ?_
    show ((xs ++ x :: s).reverse.set n a).reverse = _
    have e : (xs ++ x :: s).reverse = s.reverse ++ x :: xs.reverse := by simp
    rw [e, List.set_append_right _ _ (by simp; omega), show n - s.reverse.length = 0 by simp; omega]
    simp
  | popn n xs s hn =>
    refine key _ (.inl ⟨rfl, rfl⟩) (popn_ok (m := v.mach b _ 1) (by rw [hst]; simp [hn])) ?_
    show List.drop _ b.stack = _
    rw [hbs, ← hn]
    simp
  | dupn n a s => exact key _ (.inl ⟨rfl, rfl⟩) (dupn_ok (m := v.mach b _ 1) hst (hdupn n rfl)) rfl

/-- `cover 2` on a stack of four, and a `bury 1` that meets its condition. -/
example : outcome [.int 1, .int 2, .int 3, .int 4, .u8 .cover 2] 8 4 = some (.u8 .cover 2, false,
    [⟨.uint64, .uint 4⟩, ⟨.uint64, .uint 3⟩, ⟨.uint64, .uint 2⟩, ⟨.uint64, .uint 1⟩],
    [⟨.uint64, .uint 3⟩, ⟨.uint64, .uint 2⟩, ⟨.uint64, .uint 4⟩, ⟨.uint64, .uint 1⟩]) := by decide +kernel
example : ∃ s', Rearranges (α := VmValue) (.u8 .cover 2) [⟨.uint64, .uint 4⟩, ⟨.uint64, .uint 3⟩, ⟨.uint64, .uint 2⟩, ⟨.uint64, .uint 1⟩] s' :=
  ⟨_, .cover (α := VmValue) 2 ⟨.uint64, .uint 4⟩ [⟨.uint64, .uint 3⟩, ⟨.uint64, .uint 2⟩] [⟨.uint64, .uint 1⟩] rfl⟩
example : outcome [.int 1, .int 2, .int 3, .u8 .bury 1] 8 3 = some (.u8 .bury 1, false,
    [⟨.uint64, .uint 3⟩, ⟨.uint64, .uint 2⟩, ⟨.uint64, .uint 1⟩],
    [⟨.uint64, .uint 3⟩, ⟨.uint64, .uint 1⟩]) := by decide +kernel
example : Rearranges (α := VmValue) (.u8 .bury 1) [⟨.uint64, .uint 3⟩, ⟨.uint64, .uint 2⟩, ⟨.uint64, .uint 1⟩]
    [⟨.uint64, .uint 3⟩, ⟨.uint64, .uint 1⟩] := .bury (α := VmValue) 1 ⟨.uint64, .uint 3⟩ [] ⟨.uint64, .uint 2⟩ [⟨.uint64, .uint 1⟩] rfl

/-- C43 fails: `dup2` swaps the pair. -/
theorem C43_false : ∃ (l : List Op) (version : Nat) (v w : Vm) (k i : Nat) (b b' : VmBranch) (s' : List VmValue),
    Session l version v ∧ Selected v k b i (.plain .dup2) ∧ Rearranges (.plain .dup2) b.stack s' ∧
    v.step = some w ∧ w.branches[k]? = some b' ∧ b'.stack ≠ s' := by
  obtain ⟨v, k, b, i, w, b', h1, h2, h3, h4, h5, h6, h7⟩ := outcome_step (n := 2) (l := [.int 1, .int 2, .plain .dup2])
    (version := 8) (o := .plain .dup2) (e := false) (s := [⟨.uint64, .uint 2⟩, ⟨.uint64, .uint 1⟩])
    (s' := [⟨.uint64, .uint 1⟩, ⟨.uint64, .uint 2⟩, ⟨.uint64, .uint 1⟩, ⟨.uint64, .uint 2⟩]) (by decide +kernel)
  refine ⟨_, _, v, w, k, i, b, b', _, h1, h2, (by rw [h6]; exact .dup2 _ _ _), h3, h4, ?_⟩
  rw [h7]; decide

/-- C43 fails: `bury 1` on three values below the top replaces the wrong one. -/
theorem C43_bury_false : ∃ (l : List Op) (version : Nat) (v w : Vm) (k i : Nat) (b b' : VmBranch) (s' : List VmValue),
    Session l version v ∧ Selected v k b i (.u8 .bury 1) ∧ Rearranges (.u8 .bury 1) b.stack s' ∧
    v.step = some w ∧ w.branches[k]? = some b' ∧ b'.stack ≠ s' := by
  obtain ⟨v, k, b, i, w, b', h1, h2, h3, h4, h5, h6, h7⟩ := outcome_step (n := 4)
    (l := [.int 1, .int 2, .int 3, .int 4, .u8 .bury 1])
    (version := 8) (o := .u8 .bury 1) (e := false)
    (s := [⟨.uint64, .uint 4⟩, ⟨.uint64, .uint 3⟩, ⟨.uint64, .uint 2⟩, ⟨.uint64, .uint 1⟩])
    (s' := [⟨.uint64, .uint 3⟩, ⟨.uint64, .uint 4⟩, ⟨.uint64, .uint 1⟩]) (by decide +kernel)
  refine ⟨_, _, v, w, k, i, b, b', _, h1, h2, (by rw [h6]; exact .bury 1 _ [] _ _ rfl), h3, h4, ?_⟩
  rw [h7]; decide

/-- C43 fails: on a stack of more than 256 values `dig` counts from the wrong end. -/
theorem C43_dig_false : ∃ (l : List Op) (version : Nat) (v w : Vm) (k i : Nat) (b b' : VmBranch) (s' : List VmValue),
    Session l version v ∧ Selected v k b i (.u8 .dig 100) ∧ Rearranges (.u8 .dig 100) b.stack s' ∧
    v.step = some w ∧ w.branches[k]? = some b' ∧ b'.stack ≠ s' := by
  have hl : (outcome [.int 1, .u8 .dupn 254, .int 2, .u8 .dupn 254, .u8 .dig 100] 8 4) = some (.u8 .dig 100, false,
      List.replicate 255 ⟨.uint64, .uint 2⟩ ++ List.replicate 255 ⟨.uint64, .uint 1⟩,
      ⟨.uint64, .uint 1⟩ :: (List.replicate 255 ⟨.uint64, .uint 2⟩ ++ List.replicate 255 ⟨.uint64, .uint 1⟩)) := by
    decide +kernel
  obtain ⟨v, k, b, i, w, b', h1, h2, h3, h4, h5, h6, h7⟩ := outcome_step hl
  refine ⟨_, _, v, w, k, i, b, b', ⟨.uint64, .uint 2⟩ :: b.stack, h1, h2, .dig _ _ _ ?_, h3, h4, ?_⟩
  · rw [h6]; decide +kernel
  · rw [h7, h6]; decide +kernel

end Teal.Props
