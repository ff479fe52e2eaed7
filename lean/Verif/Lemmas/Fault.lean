import Verif.Spec.Fault
import Verif.Lemmas.VmEffect

/-!
# Why instructions fail
-/

namespace Teal
open Teal.Spec

/-- `Fault` with the operands in the order in which they are taken. -/
inductive TopFault : List StackType → List VmValue → VmErr → List VmValue → Prop
  | empty (t : StackType) (ts : List StackType) : TopFault (t :: ts) [] (.emptyStack t) []
  | wrong {t : StackType} {v : VmValue} (ts : List StackType) (s : List VmValue) : ¬ Suits t v →
      TopFault (t :: ts) (v :: s) (.wrongType t v.t) (v :: s)
  | next {t : StackType} {v : VmValue} {ts : List StackType} {s : List VmValue} {e : VmErr} {r : List VmValue} :
      Suits t v → TopFault ts s e r → TopFault (t :: ts) (v :: s) e r

theorem TopFault.fault {ts : List StackType} {s r : List VmValue} {e : VmErr} (h : TopFault ts s e r) : Fault ts.reverse s e r := by
  unfold Fault
  rw [List.reverse_reverse]
  induction h with
  | empty t ts => exact ⟨0, t, rfl, Nat.le_refl _, rfl, fun i _ _ hi => by omega, .inl ⟨rfl, rfl⟩⟩
  | @wrong t v ts s hn => exact ⟨0, t, rfl, Nat.zero_le _, rfl, fun i _ _ hi => by omega, .inr ⟨v, rfl, hn, rfl⟩⟩
  | @next t v ts s e r hv _ ih =>
    obtain ⟨n, t', h1, h2, h3, h4, h5⟩ := ih
    refine ⟨n + 1, t', by simpa using h1, by simpa using h2, by simpa using h3, ?_, ?_⟩
    · intro i t1 v1 hi ht hv1
      cases i with
      | zero => simp at ht hv1; subst ht; subst hv1; exact hv
      | succ i => exact h4 i t1 v1 (by omega) (by simpa using ht) (by simpa using hv1)
    · rcases h5 with ⟨a, b⟩ | ⟨v1, a, b, c⟩
      · exact .inl ⟨by simpa using a, b⟩
      · exact .inr ⟨v1, by simpa using a, b, c⟩

/-- If `x` panics then because of the values it takes, and nothing else changed. -/
def Cause (x : X Unit) (ins : List StackType) : Prop := ∀ m : Mach, m.scratch.length = 256 → ∀ e m', x m = .panic e m' →
  TopFault ins m.br.stack e m'.br.stack ∧ m' = m.onStack m'.br.stack

theorem Cause.ofEff {x : X Unit} {outs : List StackType} (h : Eff x [] outs) : Cause x [] := by
  intro m hm e m' hx
  obtain ⟨vs, m1, h1, -⟩ := (h m hm).1 trivial
  rw [hx] at h1; cases h1

theorem Cause.pop {t : StackType} {ins : List StackType} {y : VmValue → X Unit} (h : ∀ v, Cause (y v) ins) :
    Cause (X.pop t >>= y) (t :: ins) := by
  intro m hm e m' hx
  cases hs : m.br.stack with
  | nil =>
    have e1 : X.pop t m = .panic (.emptyStack t) m := by unfold X.pop; rw [hs]
    rw [X.bind_apply, e1] at hx
    cases hx
    rw [hs]
    exact ⟨.empty t ins, by rw [← hs]; rfl⟩
  | cons v s =>
    by_cases hv : Suits t v
    · rw [X.ok_bind (pop_ok hs hv)] at hx
      obtain ⟨h1, h2⟩ := h v (m.onStack s) hm e m' hx
      exact ⟨.next hv h1, h2⟩
    · have e1 : X.pop t m = .panic (.wrongType t v.t) m := by
        unfold X.pop; rw [hs]; dsimp only
        rw [if_neg (show ¬ (t = .any ∨ v.t = .any ∨ v.t = t) from hv)]
      rw [X.bind_apply, e1] at hx
      cases hx
      rw [hs]
      exact ⟨.wrong ins s hv, by rw [← hs]; rfl⟩

theorem X.bind_assoc' {α β γ : Type} (x : X α) (f : α → X β) (g : β → X γ) :
    (x >>= f) >>= g = x >>= fun a => f a >>= g := by
  funext m
  rw [X.bind_apply, X.bind_apply, X.bind_apply]
  cases x m <;> rfl

theorem Cause.pops {ts : List StackType} {ins : List StackType} {y : X Unit} (h : Cause y ins) :
    Cause (X.pops ts >>= fun _ => y) (ts ++ ins) := by
  induction ts with
  | nil => exact h
  | cons t ts ih =>
    show Cause ((X.pop t >>= fun _ => X.pops ts) >>= fun _ => y) _
    rw [X.bind_assoc']
    exact .pop fun _ => ih

theorem Cause.popN {n : Nat} {ins : List StackType} {y : List VmValue → X Unit} (h : ∀ vs, Cause (y vs) ins) :
    Cause (X.popN n >>= y) (List.replicate n .any ++ ins) := by
  induction n generalizing y with
  | zero => exact h []
  | succ n ih =>
    show Cause ((X.pop .any >>= fun v => X.popN n >>= fun vs => (pure (v :: vs) : X (List VmValue))) >>= y) _
    rw [X.bind_assoc']
    refine Cause.pop (ins := List.replicate n .any ++ ins) fun v => ?_
    rw [X.bind_assoc']
    exact ih fun vs => h (v :: vs)

theorem Cause.calm {x : X Unit} (h : ∀ m : Mach, m.scratch.length = 256 → ∀ e m', x m ≠ .panic e m') : Cause x [] :=
  fun m hm e m' hx => absurd hx (h m hm e m')

theorem Cause.pops' {ts : List StackType} {y : X Unit} (h : Cause y []) : Cause (X.pops ts >>= fun _ => y) ts := by
  have := Cause.pops (ts := ts) h
  rwa [List.append_nil] at this

theorem Cause.popN' {n : Nat} {y : List VmValue → X Unit} (h : ∀ vs, Cause (y vs) []) :
    Cause (X.popN n >>= y) (List.replicate n .any) := by
  have := Cause.popN (n := n) h
  rwa [List.append_nil] at this

theorem calm_pushes (outs : List StackType) : Cause (X.pushes outs >>= fun _ => X.incLine) [] := by
  refine .calm fun m hm e m' hx => ?_
  obtain ⟨_, _, h1, -⟩ := eff_pushes outs m hm
  rw [hx] at h1; cases h1

theorem calm_push (v : VmValue) : Cause (X.push v >>= fun _ => X.incLine) [] := .calm fun _ _ _ _ hx => nomatch hx

theorem calm_pushAll (vs : List VmValue) : Cause (X.pushAll vs >>= fun _ => X.incLine) [] := by
  refine .calm fun m _ e m' hx => ?_
  rw [X.ok_bind (pushAll_ok vs m)] at hx; cases hx

theorem calm_forkAll (l : List Op) (bps : List Nat) (ts : List Bytes) : Cause (X.forkAll l bps ts >>= fun _ => X.incLine) [] := by
  refine .calm fun m hm e m' hx => ?_
  rw [X.ok_bind (forkAll_apply l bps ts m)] at hx; cases hx

theorem Cause.simple (ins outs : List StackType) : Cause (X.simple ins outs) ins := .pops' (calm_pushes outs)

theorem Cause.inc : Cause X.incLine [] := .calm fun _ _ _ _ hx => nomatch hx

theorem Cause.field {g : FieldGroup} {f : Nat} (hf : f < g.specs.length) {ins : List StackType} {y : StackType → X Unit}
    (h : ∀ t, Cause (y t) ins) : Cause (X.fieldType g f >>= y) ins := by
  have e : X.fieldType g f = pure g.specs[f].ftype := by
    unfold X.fieldType
    rw [List.getElem?_eq_getElem hf]
  rw [e]
  exact h _

theorem plain_cause {k : Plain} {args rets : List StackType} (h : effect (.plain k) = some (args, rets))
    (hw : ¬ WrongOperands (.plain k)) : Cause (k.execute.getD X.incLine) args.reverse := by
  cases k
  case retsub => cases h
  case bitlen => exact (hw .bitlen).elim
  case getbit => exact (hw .getbit).elim
  case setbit => exact (hw .setbit).elim
  case appOptedIn => exact (hw .appOptedIn).elim
  case bminus => exact (hw .bminus).elim
  case bbitOr => exact (hw .bbitOr).elim
  case extractUint64 => exact (hw .extractUint64).elim
  case stores => exact (hw .stores).elim
  case dup => cases h; exact Cause.pop (t := .any) fun v => calm_pushAll [v, v]
  case dup2 => cases h; exact Cause.pop (t := .any) fun v1 => Cause.pop (t := .any) fun v2 => calm_pushAll [v1, v2, v1, v2]
  case swap => cases h; exact Cause.pop (t := .any) fun v1 => Cause.pop (t := .any) fun v2 => calm_pushAll [v1, v2]
  case err => cases h; exact Cause.calm fun _ _ _ _ hx => nomatch hx
  case returnOp => cases h; exact Cause.pops' (ts := [.uint64]) (.calm fun _ _ _ _ hx => nomatch hx)
  case sha256 => cases h; exact Cause.pop (t := .bytes) fun v => calm_push _
  case ed25519verify =>
    cases h
    exact Cause.pop (t := .bytes) fun v1 => Cause.pop (t := .bytes) fun v2 => Cause.pop (t := .bytes) fun v3 => calm_push _
  all_goals (cases h; first | exact Cause.simple _ _ | exact Cause.inc)

theorem rep_succ (n : Nat) : List.replicate n StackType.any ++ [.any] = List.replicate (n + 1) .any := by
  rw [← List.replicate_succ']

theorem u8_cause {k : U8Op} {n : Nat} {args rets : List StackType} (h : effect (.u8 k n) = some (args, rets))
    (hr : n < 256) (hw : ¬ WrongOperands (.u8 k n)) (hd : k ≠ .dig) : Cause (k.execute n) args.reverse := by
  cases k
  case bury => exact (hw (.bury n)).elim
  case dig => exact (hd rfl).elim
  case popn => cases h; rw [List.reverse_replicate]; exact Cause.popN' fun _ => Cause.inc
  case dupn =>
    cases h
    refine Cause.pop (t := .any) fun v => ?_
    by_cases hn : n ≥ 255
    · rw [if_pos hn]
      exact .calm fun _ _ _ _ hx => nomatch hx
    · rw [if_neg hn]
      exact calm_pushAll _
  case cover =>
    cases h; rw [List.reverse_replicate]
    refine Cause.pop (t := .any) (ins := List.replicate n .any) fun v => Cause.popN' fun vs => ?_
    refine .calm fun m _ e m' hx => ?_
    rw [X.ok_bind (push_ok v m), X.ok_bind (pushAll_ok _ _)] at hx; cases hx
  case uncover =>
    cases h; rw [List.reverse_replicate, ← rep_succ]
    refine Cause.popN fun vs => Cause.pop (t := .any) fun v => ?_
    refine .calm fun m _ e m' hx => ?_
    rw [X.ok_bind (pushAll_ok _ _)] at hx; cases hx
  case load => cases h; exact .ofEff (load_eff n hr)
  case store =>
    cases h
    refine Cause.pop (t := .any) fun v => .calm fun m hm e m' hx => ?_
    have e1 : X.store ⟨.uint64, .uint n⟩ v m = .ok () { m with scratch := m.scratch.set n v } := by
      unfold X.store; dsimp only; rw [if_pos (by omega)]
    rw [X.ok_bind e1] at hx; cases hx
  all_goals (cases h; exact Cause.simple _ _)

theorem field_cause {k : FieldOp} {f : Nat} {args rets : List StackType} (h : effect (.field k f) = some (args, rets))
    (hr : f < fieldCount k) : Cause (k.execute f) args.reverse := by
  have one : ∀ {g : FieldGroup}, f < g.specs.length → ∀ (ts : List StackType) (us : List StackType),
      Cause (X.pops ts >>= fun _ => X.fieldType g f >>= fun t => X.pushes (t :: us) >>= fun _ => X.incLine) ts :=
    fun hg ts us => .pops' (.field hg fun t => calm_pushes _)
  cases k
  case txn => cases h; exact Cause.field (g := .txn) hr fun t => calm_pushes _
  case itxn => cases h; exact Cause.field (g := .txn) hr fun t => calm_pushes _
  case globalOp => cases h; exact Cause.field (g := .global) hr fun t => calm_pushes _
  case gtxns => cases h; exact Cause.field (g := .txn) hr fun t => .pops' (calm_pushes _)
  case txnas => cases h; exact one (g := .txn) hr [.uint64] []
  case itxnas => cases h; exact one (g := .txn) hr [.uint64] []
  case gtxnsas => cases h; exact one (g := .txn) hr [.uint64, .uint64] []
  case block => cases h; exact one (g := .block) hr [.uint64] []
  case assetHoldingGet => cases h; exact one (g := .assetHolding) hr [.uint64, .any] [.uint64]
  case assetParamsGet => cases h; exact one (g := .assetParams) hr [.uint64] [.uint64]
  case appParamsGet => cases h; exact one (g := .appParams) hr [.uint64] [.uint64]
  case acctParamsGet => cases h; exact one (g := .acctParams) hr [.any] [.uint64]
  case ecdsaVerify =>
    cases h
    exact Cause.pop (t := .bytes) fun v1 => Cause.pop (t := .bytes) fun v2 => Cause.pop (t := .bytes) fun v3 =>
      Cause.pop (t := .bytes) fun v4 => Cause.pop (t := .bytes) fun v5 => calm_push _
  all_goals (cases h; exact Cause.simple _ _)

theorem executeOp_cause (v : Vm) {o : Op} {args rets : List StackType} (h : effect o = some (args, rets))
    (hr : OperandInRange o) (hw : ¬ WrongOperands o) (hd : ∀ n, o ≠ .u8 .dig n) : Cause (v.executeOp o) args.reverse := by
  unfold Vm.executeOp
  cases o with
  | empty => cases h
  | label _ => cases h
  | pragma _ => cases h
  | comment _ => cases h
  | plain k => exact plain_cause h hw
  | u8 k n => exact u8_cause h hr hw fun hk => hd n (by rw [hk])
  | u8u8 k a b =>
    cases k
    case proto => cases h
    all_goals (cases h; exact Cause.simple _ _)
  | i8 k i => cases h
  | field k f => exact field_cause h hr
  | fieldIdx k f i =>
    cases k
    case txna => cases h; exact Cause.field (g := .txn) hr fun t => calm_pushes _
    case gtxnsa => cases h; exact Cause.field (g := .txn) hr fun t => .pops' (calm_pushes _)
    case itxna => cases h; exact Cause.inc
  | groupField k t f =>
    cases k
    case gtxn => cases h; exact Cause.field (g := .txn) hr fun t => calm_pushes _
    case gitxn => cases h; exact Cause.field (g := .txn) hr fun t => calm_pushes _
    case gtxnas => cases h; exact .pops' (.field (g := .txn) hr fun t => calm_pushes _)
    case gitxnas => cases h; exact .pops' (.field (g := .txn) hr fun t => calm_pushes _)
  | groupFieldIdx k t f i => cases k <;> (cases h; exact Cause.field (g := .txn) hr fun t => calm_pushes _)
  | int n => cases h; exact calm_push _
  | pushint n => cases h; exact Cause.simple _ _
  | byte b => cases h; exact calm_push _
  | pushbytes b => cases h; exact calm_push _
  | addr a => cases h; exact Cause.inc
  | method s => cases h; exact calm_push _
  | intcblock vs => cases h; exact Cause.inc
  | bytecblock vs => cases h; exact Cause.inc
  | pushints vs => cases h; exact calm_pushes _
  | pushbytess vs => cases h; exact calm_pushAll _
  | branch k t =>
    cases k
    case b => cases h; exact Cause.calm fun _ _ _ _ hx => nomatch hx
    case callsub => cases h; exact Cause.calm fun _ _ _ _ hx => nomatch hx
    all_goals
      cases h
      refine Cause.pops' (ts := [.uint64]) ?_
      rw [fork_one]
      exact calm_forkAll _ _ _
  | switch ts => cases h; exact .pops' (calm_forkAll _ _ _)
  | match_ ts =>
    cases h
    rw [List.reverse_replicate, ← rep_succ]
    exact Cause.popN fun _ => Cause.pops' (ts := [.any]) (calm_forkAll _ _ _)

theorem instead_cause (v : Vm) {o : Op} {args rets : List StackType} (h : insteadTakes o = some (args, rets)) :
    Cause (v.executeOp o) args.reverse := by
  unfold insteadTakes at h
  split at h <;> cases h
  · exact Cause.simple _ _
  · exact Cause.simple _ _
  · exact Cause.simple _ _
  · exact Cause.simple _ _
  · exact Cause.inc
  · exact Cause.inc
  · exact Cause.inc
  · exact Cause.inc
  · exact Cause.inc
  · exact calm_pushes _

/-- The price is unknown only if the machine looks below the bottom of the stack. -/
theorem costs_noPlace {version : Nat} {b : VmBranch} {o : Op} {e : VmErr} (hr : OperandInRange o)
    (hc : o.costs version b = .error e) : e = .index ∧ NoPlace o b.stack := by
  have ec : ∀ {x y : Int} {g : Nat}, g < 4 → ecCosts x y g ≠ .error e := by
    intro x y g hg
    unfold ecCosts
    split
    · simp
    · split
      · simp
      · omega
  have ecd : ∀ {x y : Int} {g : Nat}, g < 2 → ecdsaCosts [x, y] g ≠ .error e := by
    intro x y g hg
    unfold ecdsaCosts
    match g, hg with
    | 0, _ => simp
    | 1, _ => simp
  have len : ∀ {f : Nat → Int}, lengthCosts f b = .error e → b.stack = [] ∧ e = .index := by
    intro f hf
    unfold lengthCosts at hf
    split at hf
    · cases hf; exact ⟨by assumption, rfl⟩
    · cases hf
  cases o with
  | plain k => cases hc
  | field k f =>
    cases k
    case ecdsaVerify => exact absurd hc (ecd hr)
    case ecdsaPkDecompress => exact absurd hc (ecd hr)
    case base64Decode => obtain ⟨h1, h2⟩ := len hc; rw [h1]; exact ⟨h2, .base64Decode f⟩
    case jsonRef => obtain ⟨h1, h2⟩ := len hc; rw [h1]; exact ⟨h2, .jsonRef f⟩
    case ecAdd => exact absurd hc (ec hr)
    case ecScalarMul => exact absurd hc (ec hr)
    case ecPairingCheck => exact absurd hc (ec hr)
    case ecMultiExp => exact absurd hc (ec hr)
    case ecSubgroupCheck => exact absurd hc (ec hr)
    case ecMapTo => exact absurd hc (ec hr)
    all_goals cases hc
  | _ => cases hc

end Teal
