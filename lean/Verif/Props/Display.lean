import Verif.Lemmas.Redisplay
import Verif.Props.Dap
import Verif.Props.VmStack

/-!
# C95, C96: what the debugger displays, and whether it is true
-/

namespace Teal.Props
open Teal Teal.Spec Teal.Dap

/-! ## C95 -/

/-- C95: in every state of every session, asking for the variables of a scope of a branch is answered
with the names and values that scope displays. -/
theorem C95_answer {env : Env} {ms : List Msg} {outs : List Sent} {d : Dbg} {mc : Machine} {b : VmBranch}
    (h : Sends env ms outs (some d)) (hm : d.vm = some mc) (hb : b ∈ mc.tvm.branches) :
    ∃ ss, Responds env d (.scopes (some b.id)) (.scopes ss) ∧ ∀ k : ScopeKind, ∃ s ∈ ss, s.name = k.title ∧
      ∃ vs, Responds env d (.variables (some ⟨s.ref, none, none⟩)) (.variables vs) ∧
        ∀ name value, (name, value) ∈ wireVars vs ↔ Displays mc.tvm b k name value := by
  obtain ⟨ss, h1, h2⟩ := C51 h hm hb
  refine ⟨ss, h1, fun k => ?_⟩
  obtain ⟨s, h3, h4, -, vs, h5, h6⟩ := h2 k
  refine ⟨s, h3, h4, vs, h5, fun name value => ?_⟩
  unfold wireVars
  rw [List.mem_map]
  constructor
  · rintro ⟨⟨n, x⟩, h7, h8⟩
    cases h8
    exact ⟨n, x, (h6 n x).1 h7, rfl, rfl⟩
  · rintro ⟨n, x, h7, rfl, rfl⟩
    exact ⟨(n, x), (h6 n x).2 h7, rfl⟩

/-- C95: in one scope, variables with the same name have the same value. -/
theorem C95_names {v : Vm} {b : VmBranch} {k : ScopeKind} {name t t' : Bytes} (h : Displays v b k name t)
    (h' : Displays v b k name t') : t = t' := by
  obtain ⟨n, x, h1, h2, rfl⟩ := h
  obtain ⟨n', x', h1', h2', rfl⟩ := h'
  cases h1 with
  | budget => cases h1'; rfl
  | stack hx =>
    cases h1' with
    | stack hx' =>
      obtain rfl := formatUint_inj (h2.symm.trans h2')
      rw [hx] at hx'; cases hx'; rfl
  | scratch hx _ =>
    cases h1' with
    | scratch hx' _ =>
      obtain rfl := formatUint_inj (h2.symm.trans h2')
      rw [hx] at hx'; cases hx'; rfl
  | trace hx =>
    cases h1' with
    | trace hx' =>
      obtain rfl := formatUint_inj (h2.symm.trans h2')
      rw [hx] at hx'; cases hx'; rfl

/-- C95: the state displays the budget that is left, in decimal, and nothing else. -/
theorem C95_budget {l : List Op} {version : Nat} {v : Vm} (h : Session l version v) {b : VmBranch} (hb : b ∈ v.branches)
    {name t : Bytes} : Displays v b .state name t ↔ name = b!"Budget" ∧ ∃ n : Nat, b.budget = n ∧ DecimalOf n t := by
  have h0 := session_budget h b hb
  have key : formatInt b.budget = formatUint b.budget.toNat := by
    obtain ⟨n, hn⟩ := Int.eq_ofNat_of_zero_le h0
    rw [hn]; rfl
  constructor
  · rintro ⟨n, x, h1, rfl, rfl⟩
    cases h1
    exact ⟨rfl, b.budget.toNat, by omega, by show DecimalOf _ (formatInt _); rw [key]; exact formatUint_decimal _⟩
  · rintro ⟨rfl, n, hn, hd⟩
    refine ⟨0, _, .budget, rfl, ?_⟩
    show t = formatInt _
    rw [key, hn]
    exact decimal_spelling hd (formatUint_decimal _)

/-- C95: an executed instruction changes the displays of the stack and of the scratch space as
`Redisplays` says. -/
theorem C95_partial {l : List Op} {version : Nat} {v w : Vm} (h : Session l version v) (hstep : v.step = some w) (he : w.error = none)
    {k : Nat} {o : Op} (hx : Executed v w k o) {b b' : VmBranch} (hb : v.branches[k]? = some b) (hb' : w.branches[k]? = some b')
    {ts ts' : List Bytes} {f f' : Nat → Option Bytes} (hs : StackShown v b ts) (hf : SlotsShown v b f)
    (hr : Redisplays o ts f ts' f') : StackShown w b' ts' ∧ SlotsShown w b' f' := by
  have hv := session_inv h
  have hp := session_proper h
  obtain ⟨b0, i, c, m, ha, hok, hfin⟩ := step_executed hv hstep he hx
  have e := ha.old
  rw [hb] at e; cases e
  rw [stackShown_iff] at hs ⊢
  rw [slotsShown_iff] at hf ⊢
  subst hs hf
  obtain ⟨h1, h2⟩ := exec_redisplay (m := v.mach b o c) ⟨hp.1 k b hb, hp.2⟩ hok hr
  rw [h1, h2, hfin.scratch]
  refine ⟨?_, rfl⟩
  cases finished_origin hv hfin hb' with
  | other _ hne _ _ => exact (hne rfl).elim
  | fork _ hle _ _ => have := (List.getElem?_eq_some_iff.1 hb).1; omega
  | self _ hr => rw [hr.same]; dsimp only; rw [skipNops_same]

/-- C95: a step changes no display of a branch on which it executes nothing and, unless it executes
`store` or `stores`, not the scratch space. -/
theorem C95_others {l : List Op} {version : Nat} {v w : Vm} (h : Session l version v) (hstep : v.step = some w) (he : w.error = none)
    {k : Nat} (hx : ∀ o, ¬ Executed v w k o) {b b' : VmBranch} (hb : v.branches[k]? = some b) (hb' : w.branches[k]? = some b') :
    (∀ ts, StackShown v b ts → StackShown w b' ts) ∧
    ((∀ j o, Executed v w j o → ¬ Saves o) → ∀ f, SlotsShown v b f → SlotsShown w b' f) := by
  have hv := session_inv h
  obtain ⟨b0, e1, h1, -, -⟩ := step_not_executed hv hstep he hb hx
  rw [hb'] at e1; cases e1
  constructor
  · intro ts hs
    rw [stackShown_iff] at hs ⊢
    rw [h1]; exact hs
  · intro hw f hf
    rw [slotsShown_iff] at hf ⊢
    rw [step_scratch hv hstep he hw]; exact hf

/-- What a step from the state after `n` steps does on a branch: whether it fails, and the traces and
the stacks before and after. -/
def trial (l : List Op) (version n k : Nat) : Option ((Bool × List Op × List Op) × List VmValue × List VmValue) := do
  let v ← after l version n
  let w ← v.step
  let b ← v.branches[k]?
  let b' ← w.branches[k]?
  pure ((w.error.isSome, b.trace, b'.trace), b.stack, b'.stack)

theorem trial_step {l : List Op} {version n k : Nat} {tr tr' : List Op} {s s' : List VmValue}
    (h : trial l version n k = some ((false, tr, tr'), s, s')) : ∃ v w b b', after l version n = some v ∧
      after l version (n + 1) = some w ∧ v.step = some w ∧ w.error = none ∧ v.branches[k]? = some b ∧ w.branches[k]? = some b' ∧
      b.trace = tr ∧ b'.trace = tr' ∧ b.stack = s ∧ b'.stack = s' := by
  simp only [trial, bind, Option.bind_eq_some_iff] at h
  obtain ⟨v, h1, w, h2, b, h3, b', h4, h5⟩ := h
  obtain ⟨h6, h7⟩ := Prod.mk.inj (Option.some.inj h5)
  obtain ⟨h8, h9⟩ := Prod.mk.inj h6
  obtain ⟨h10, h11⟩ := Prod.mk.inj h9
  obtain ⟨h12, h13⟩ := Prod.mk.inj h7
  refine ⟨v, w, b, b', h1, ?_, h2, ?_, h3, h4, h10, h11, h12, h13⟩
  · show (after l version n).bind Vm.step = _
    rw [h1]; exact h2
  · cases he : w.error with
    | none => rfl
    | some e => rw [he] at h8; cases h8

/-- A program in which the hypotheses of `C95_partial` hold for a `load` of a stored constant, which
is then displayed as `any: uint64: 7`. -/
example : ∃ v w b b', Session [.int 7, .u8 .store 3, .u8 .load 3] 8 v ∧ v.step = some w ∧ w.error = none ∧
    Executed v w 0 (.u8 .load 3) ∧ v.branches[0]? = some b ∧ w.branches[0]? = some b' ∧ StackShown w b' [b!"any: uint64: 7"] := by
  obtain ⟨v, w, b, b', h1, h2, h3, h4, h5, h6, h7, h8, h9, h10⟩ := trial_step (l := [.int 7, .u8 .store 3, .u8 .load 3]) (version := 8)
    (n := 2) (k := 0) (tr := [.int 7, .u8 .store 3]) (tr' := [.int 7, .u8 .store 3, .u8 .load 3]) (s := [])
    (s' := [⟨.any, .val .uint64 (.uint 7)⟩]) (by decide +kernel)
  refine ⟨v, w, b, b', after_session h1, h3, h4, ⟨b, b', h5, h6, by rw [h7, h8]; rfl⟩, h5, h6, ?_⟩
  rw [stackShown_iff, h10]
  decide +kernel

/-- C95 fails: `pushint 5` is not displayed as the constant it is. -/
theorem C95_false : ∃ (l : List Op) (version : Nat) (v w : Vm) (b : VmBranch) (name : Bytes), Session l version v ∧ v.step = some w ∧
    w.error = none ∧ Executed v w 0 (.pushint 5) ∧ w.branches[0]? = some b ∧ DecimalOf 0 name ∧
    ¬ Displays w b .stack name b!"uint64: 5" := by
  obtain ⟨v, w, b, b', h1, h2, h3, h4, h5, h6, h7, h8, h9, h10⟩ := trial_step (l := [.pushint 5]) (version := 8)
    (n := 0) (k := 0) (tr := []) (tr' := [.pushint 5]) (s := []) (s' := [⟨.uint64, .none⟩]) (by decide +kernel)
  refine ⟨_, _, v, w, b', _, after_session h1, h3, h4, ⟨b, b', h5, h6, by rw [h7, h8]; rfl⟩, h6, formatUint_decimal 0, fun hd => ?_⟩
  have hs : StackShown w b' [b!"uint64"] := by rw [stackShown_iff, h10]; rfl
  have := (hs 0 b!"uint64: 5").1 ⟨_, formatUint_decimal 0, hd⟩
  revert this
  decide

/-- C95 fails: the display does not tell the selector of a method from a byte string. -/
theorem C95_method_false : ∃ (l : List Op) (version : Nat) (v : Vm) (b : VmBranch) (s c : Bytes) (t : Bytes), Session l version v ∧
    v.branches[0]? = some b ∧ b.trace = [.method s, .byte c] ∧ StackShown v b [t, t] := by
  obtain ⟨v, w, b, b', h1, h2, h3, h4, h5, h6, h7, h8, h9, h10⟩ := trial_step (l := [.method b!"b64 YWJj", .byte b!"abc"]) (version := 8)
    (n := 1) (k := 0) (tr := [.method b!"b64 YWJj"]) (tr' := [.method b!"b64 YWJj", .byte b!"abc"]) (s := [⟨.bytes, .sig b!"b64 YWJj"⟩])
    (s' := [⟨.bytes, .bytes b!"abc"⟩, ⟨.bytes, .sig b!"b64 YWJj"⟩]) (by decide +kernel)
  refine ⟨_, _, w, b', _, _, b!"bytes: b64 YWJj", after_session h2, h6, h8, ?_⟩
  rw [stackShown_iff, h10]
  decide +kernel

/-! ## C96 -/

/-- C96: when a real run follows a branch, the display of the branch has as many stack slots as the
real stack, what the texts say is true of the real values, and the trace is what the run executed. -/
theorem C96_partial {fn : Functions} {l : List Op} {version : Nat} {v : Vm} {k : Nat} {r : Real} (h : Follows fn l version v k r)
    {b : VmBranch} (hb : v.branches[k]? = some b) :
    (∀ ts, StackShown v b ts → ts.length = r.stack.length) ∧
    (∀ (n : Nat) (name t : Bytes) (P : Val → Prop), DecimalOf n name → Displays v b .stack name t → Claims fn t P →
      ∃ x, r.stack.reverse[n]? = some x ∧ P x) ∧
    (∀ (n : Nat) (name t : Bytes) (P : Val → Prop), DecimalOf n name → Displays v b .scratch name t → Claims fn t P →
      P (r.scratch n)) ∧
    DoesAll fn b.trace Real.start r := by
  obtain ⟨b0, e0, h1, h2, -, h4⟩ := follows_sound h
  rw [hb] at e0; cases e0
  have hp := session_proper (follows_session h)
  refine ⟨?_, ?_, ?_, h4⟩
  · intro ts hs
    rw [stackShown_iff.1 hs, List.length_map, h1.1]
  · intro n name t P hn hd hc
    obtain ⟨n', x, e1, rfl, rfl⟩ := displays_stack.1 hd
    rw [decimal_eq hn (formatUint_decimal n')]
    have h5 := h1.reverse
    have hl : n' < r.stack.reverse.length := by rw [← h5.1]; exact (List.getElem?_eq_some_iff.1 e1).1
    have e2 := List.getElem?_eq_getElem hl
    have h6 := h5.2 _ _ _ e1 e2
    exact ⟨_, e2, claims_true hc (hp.1 k b hb x (List.mem_reverse.1 (List.mem_of_getElem? e1))).1 rfl h6.1 h6.2⟩
  · intro n name t P hn hd hc
    obtain ⟨n', x, e1, hne, rfl, rfl⟩ := displays_scratch.1 hd
    rw [decimal_eq hn (formatUint_decimal n')]
    have h6 := h2 _ _ e1
    refine claims_true hc ?_ rfl h6.1 h6.2
    rcases hp.2 x (List.mem_of_getElem? e1) with hx | rfl
    · exact hx.1
    · exact (hne rfl).elim

/-- C96: beneath the texts, what the debugger's machine knows of the values is true of the values of
the run. -/
theorem C96_values {fn : Functions} {l : List Op} {version : Nat} {v : Vm} {k : Nat} {r : Real} (h : Follows fn l version v k r)
    {b : VmBranch} (hb : v.branches[k]? = some b) : StackHolds fn b.stack r.stack ∧ ScratchHolds fn v.scratch r.scratch := by
  obtain ⟨b0, e0, h1, h2, -, -⟩ := follows_sound h
  rw [hb] at e0; cases e0
  exact ⟨h1, h2⟩

theorem follow_one {fn : Functions} {l : List Op} {version n k : Nat} {v : Vm} {r r' : Real} {tr : List Op} {o : Op} {s s' : List VmValue}
    (h : Follows fn l version v k r) (hv : after l version n = some v)
    (ht : trial l version n k = some ((false, tr, tr ++ [o]), s, s')) (hd : ∀ fs, ¬ Differs s fs r o) (ho : Does fn o r r') :
    ∃ w, after l version (n + 1) = some w ∧ Follows fn l version w k r' := by
  obtain ⟨v', w, b, b', h1, h2, h3, h4, h5, h6, h7, h8, h9, h10⟩ := trial_step ht
  rw [hv] at h1; cases h1
  exact ⟨w, h2, .step h h5 h3 h4 ⟨b, b', h5, h6, by rw [h7, h8]⟩ (by rw [h9]; exact hd _) ho⟩

/-- A real run of `int 7; store 3; load 3` follows the debugger, and the loaded value is displayed as
`any: uint64: 7`, which says that it is 7. -/
example (fn : Functions) : ∃ v b r, Follows fn [.int 7, .u8 .store 3, .u8 .load 3] 8 v 0 r ∧ v.branches[0]? = some b ∧
    r.stack = [.uint 7] ∧ (∃ name, DecimalOf 0 name ∧ Displays v b .stack name b!"any: uint64: 7") ∧
    Claims fn b!"any: uint64: 7" (fun x => x = .uint 7) := by
  obtain ⟨v1, e1, f1⟩ := follow_one (fn := fn) (n := 0) (k := 0) (tr := []) (o := .int 7) (s := []) (s' := [⟨.uint64, .uint 7⟩])
    (.new (l := [.int 7, .u8 .store 3, .u8 .load 3]) (version := 8)) rfl (by decide +kernel)
    (fun fs hd => by rcases hd with ⟨⟨⟩⟩) (.constants (.int 7))
  obtain ⟨v2, e2, f2⟩ := follow_one (n := 1) (k := 0) (tr := [.int 7]) (o := .u8 .store 3) (s := [⟨.uint64, .uint 7⟩]) (s' := [])
    f1 e1 (by decide +kernel) (fun fs hd => by rcases hd with ⟨⟨⟩⟩) (.store 3 rfl)
  obtain ⟨v3, e3, f3⟩ := follow_one (n := 2) (k := 0) (tr := [.int 7, .u8 .store 3]) (o := .u8 .load 3) (s := [])
    (s' := [⟨.any, .val .uint64 (.uint 7)⟩]) f2 e2 (by decide +kernel) (fun fs hd => by rcases hd with ⟨⟨⟩⟩) (.load 3)
  obtain ⟨v, w, b, b', h1, h2, h3, h4, h5, h6, h7, h8, h9, h10⟩ := trial_step (l := [.int 7, .u8 .store 3, .u8 .load 3]) (version := 8)
    (n := 2) (k := 0) (tr := [.int 7, .u8 .store 3]) (tr' := [.int 7, .u8 .store 3, .u8 .load 3]) (s := [])
    (s' := [⟨.any, .val .uint64 (.uint 7)⟩]) (by decide +kernel)
  rw [e3] at h2; cases h2
  refine ⟨v3, b', _, f3, h6, rfl, ?_, ?_⟩
  · exact (stackShown_iff.2 (by rw [h10]) 0 _).2 (by decide +kernel)
  · exact .loaded (t := b!"uint64: 7") (.uint (t := b!"7") (by
      have := formatUint_decimal 7
      rwa [show formatUint 7 = b!"7" by decide +kernel] at this))

/-- C96 fails: after `dup2` the texts are in the wrong order. -/
theorem C96_false (fn : Functions) : ∃ (l : List Op) (version : Nat) (v : Vm) (b : VmBranch) (r : Real) (n : Nat) (name t : Bytes)
    (P : Val → Prop) (x : Val), Session l version v ∧ v.branches[0]? = some b ∧ DoesAll fn b.trace Real.start r ∧
    DecimalOf n name ∧ Displays v b .stack name t ∧ Claims fn t P ∧ r.stack.reverse[n]? = some x ∧ ¬ P x := by
  obtain ⟨v, w, b, b', h1, h2, h3, h4, h5, h6, h7, h8, h9, h10⟩ := trial_step (l := [.int 1, .int 2, .plain .dup2]) (version := 8)
    (n := 2) (k := 0) (tr := [.int 1, .int 2]) (tr' := [.int 1, .int 2, .plain .dup2])
    (s := [⟨.uint64, .uint 2⟩, ⟨.uint64, .uint 1⟩])
    (s' := [⟨.uint64, .uint 1⟩, ⟨.uint64, .uint 2⟩, ⟨.uint64, .uint 1⟩, ⟨.uint64, .uint 2⟩]) (by decide +kernel)
  obtain ⟨name, hn, hd⟩ := ((stackShown_iff (v := w) (b := b')).2 rfl 3 b!"uint64: 1").2 (by rw [h10]; decide +kernel)
  refine ⟨_, _, w, b', { stack := [.uint 2, .uint 1, .uint 2, .uint 1], scratch := fun _ => .uint 0, calls := [] }, 3, name, _, _, .uint 2, after_session h2, h6, ?_, hn, hd,
    .uint (n := 1) (t := b!"1") (by
      have := formatUint_decimal 1
      rwa [show formatUint 1 = b!"1" by decide +kernel] at this), ?_, by simp⟩
  · rw [h8]
    exact .snoc (os := [.int 1, .int 2]) (.snoc (os := [.int 1]) (.snoc (os := []) (.nil _) (.constants (.int 1))) (.constants (.int 2)))
      (.rearranges (.dup2 (Val.uint 1) (.uint 2) []))
  · rfl

/-- C96 fails: the branches share the scratch space, so a branch displays what another one stored.
Here the branch that jumps over `int 5; store 0` displays the slot 0 with the text `uint64: 5`. -/
theorem C96_scratch_false (fn : Functions) : ∃ (l : List Op) (version : Nat) (v : Vm) (k : Nat) (b : VmBranch) (r : Real) (n : Nat)
    (name t : Bytes) (P : Val → Prop), Session l version v ∧ v.branches[k]? = some b ∧ DoesAll fn b.trace Real.start r ∧
    b.trace = [.int 1, .branch .bnz b!"a", .u8 .load 0] ∧
    DecimalOf n name ∧ Displays v b .stack name t ∧ Claims fn t P ∧ ∃ x, r.stack.reverse[n]? = some x ∧ ¬ P x := by
  obtain ⟨v, w, b, b', h1, h2, h3, h4, h5, h6, h7, h8, h9, h10⟩ := trial_step
    (l := [.int 1, .branch .bnz b!"a", .int 5, .u8 .store 0, .label b!"a", .u8 .load 0]) (version := 8)
    (n := 5) (k := 1) (tr := [.int 1, .branch .bnz b!"a"]) (tr' := [.int 1, .branch .bnz b!"a", .u8 .load 0])
    (s := []) (s' := [⟨.any, .val .uint64 (.uint 5)⟩]) (by decide +kernel)
  obtain ⟨name, hn, hd⟩ := ((stackShown_iff (v := w) (b := b')).2 rfl 0 b!"any: uint64: 5").2 (by rw [h10]; decide +kernel)
  refine ⟨_, _, w, 1, b', { stack := [.uint 0], scratch := fun _ => .uint 0, calls := [] }, 0, name, _, _, after_session h2, h6, ?_, h8, hn, hd,
    .loaded (t := b!"uint64: 5") (.uint (n := 5) (t := b!"5") (by
      have := formatUint_decimal 5
      rwa [show formatUint 5 = b!"5" by decide +kernel] at this)), .uint 0, rfl, by simp⟩
  rw [h8]
  exact .snoc (os := [.int 1, .branch .bnz b!"a"]) (.snoc (os := [.int 1]) (.snoc (os := []) (.nil _) (.constants (.int 1)))
    (.table (args := [.uint64]) (rets := []) (xs := [.uint 1]) (ys := []) (s := []) rfl (by simp [OwnRule]) rfl
      ⟨rfl, by intro i t x h h'; cases i with | zero => cases h; cases h'; exact ⟨1, rfl⟩ | succ => cases h⟩
      ⟨rfl, by intro i t x h h'; cases h⟩)) (.load 0)

end Teal.Props
