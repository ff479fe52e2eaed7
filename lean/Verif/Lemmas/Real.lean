import Verif.Lemmas.VmEffect
import Verif.Lemmas.VmFrames
import Verif.Lemmas.VmHist
import Verif.Spec.Real

/-!
# The instructions and real runs
-/

namespace Teal
open Teal.Spec

theorem X.bind_ok {α β : Type} {x : X α} {f : α → X β} {m m' : Mach} {a : β} (h : (x >>= f) m = .ok a m') :
    ∃ b m1, x m = .ok b m1 ∧ f b m1 = .ok a m' := by
  rw [X.bind_apply] at h
  cases hx : x m with
  | ok b m1 => rw [hx] at h; exact ⟨b, m1, rfl, h⟩
  | panic e m1 => rw [hx] at h; cases h
  | hang => rw [hx] at h; cases h

theorem pop_inv {t : StackType} {m m' : Mach} {v : VmValue} (h : X.pop t m = .ok v m') :
    m.br.stack = v :: m'.br.stack ∧ m' = m.onStack m'.br.stack ∧ Suits t v := by
  unfold X.pop at h
  cases hs : m.br.stack with
  | nil => rw [hs] at h; cases h
  | cons a s =>
    rw [hs] at h
    dsimp only at h
    split at h
    · cases h; exact ⟨rfl, rfl, by assumption⟩
    · cases h

theorem pops_inv {ts : List StackType} {m m' : Mach} {u : Unit} (h : X.pops ts m = .ok u m') :
    FitsTop ts m.br.stack ∧ m' = m.onStack (m.br.stack.drop ts.length) := by
  by_cases hf : FitsTop ts m.br.stack
  · rw [pops_ok ts m hf] at h; cases h; exact ⟨hf, rfl⟩
  · obtain ⟨e, m1, h1⟩ := pops_panic ts m hf
    rw [h1] at h; cases h

theorem popN_inv {n : Nat} {m m' : Mach} {vs : List VmValue} (h : X.popN n m = .ok vs m') :
    n ≤ m.br.stack.length ∧ vs = m.br.stack.take n ∧ m' = m.onStack (m.br.stack.drop n) := by
  by_cases hf : n ≤ m.br.stack.length
  · rw [popN_ok n m hf] at h; cases h; exact ⟨hf, rfl, rfl⟩
  · obtain ⟨e, m1, h1⟩ := popN_panic n m (by omega)
    rw [h1] at h; cases h

/-- `x` takes `n` values and leaves values of which it knows the types only, and does not write to
the scratch space. -/
def LeavesReal (x : X Unit) (n : Nat) (outs : List StackType) : Prop := ∀ m m', x m = .ok () m' →
  n ≤ m.br.stack.length ∧
  m'.br.stack = (outs.map fun t => (⟨t, .none⟩ : VmValue)).reverse ++ m.br.stack.drop n ∧ m'.scratch = m.scratch

theorem fits_length {ts : List StackType} {s : List VmValue} (h : FitsTop ts s) : ts.length ≤ s.length :=
  ((fitsTop_iff ts s).1 h).1

theorem LeavesReal.nop {x : X Unit} (h : ∀ m m', x m = .ok () m' → m'.br.stack = m.br.stack ∧ m'.scratch = m.scratch) : LeavesReal x 0 [] := by
  intro m m' hx
  obtain ⟨h1, h2⟩ := h m m' hx
  exact ⟨Nat.zero_le _, h1, h2⟩

theorem LeavesReal.inc : LeavesReal X.incLine 0 [] := .nop fun m m' h => by cases h; exact ⟨rfl, rfl⟩

theorem LeavesReal.pops {ins outs : List StackType} {y : X Unit} (h : LeavesReal y 0 outs) :
    LeavesReal (X.pops ins >>= fun _ => y) ins.length outs := by
  intro m m' hx
  obtain ⟨_, m1, h1, h2⟩ := X.bind_ok hx
  obtain ⟨hf, rfl⟩ := pops_inv h1
  obtain ⟨-, h3, h4⟩ := h _ _ h2
  exact ⟨fits_length hf, h3, h4⟩

theorem LeavesReal.pushes (outs : List StackType) : LeavesReal (X.pushes outs >>= fun _ => X.incLine) 0 outs := by
  intro m m' hx
  obtain ⟨_, m1, h1, h2⟩ := X.bind_ok hx
  rw [pushes_ok] at h1
  cases h1
  cases h2
  exact ⟨Nat.zero_le _, rfl, rfl⟩

theorem LeavesReal.simple (ins outs : List StackType) : LeavesReal (X.simple ins outs) ins.length outs := .pops (.pushes outs)

theorem LeavesReal.field {g : FieldGroup} {f n : Nat} {outs : StackType → List StackType} {y : StackType → X Unit} {ty : Nat → StackType}
    (ht : ∀ (hf : f < g.specs.length), g.specs[f].ftype = ty f) (h : ∀ t, LeavesReal (y t) n (outs t)) :
    LeavesReal (X.fieldType g f >>= y) n (outs (ty f)) := by
  intro m m' hx
  obtain ⟨t, m1, h1, h2⟩ := X.bind_ok hx
  unfold X.fieldType at h1
  by_cases hf : f < g.specs.length
  · rw [List.getElem?_eq_getElem hf] at h1
    cases h1
    rw [← ht hf]
    exact h _ _ _ h2
  · rw [List.getElem?_eq_none (by omega)] at h1
    cases h1

theorem LeavesReal.forkAll (l : List Op) (bps : List Nat) (ts : List Bytes) :
    LeavesReal (X.forkAll l bps ts >>= fun _ => X.incLine) 0 [] := by
  intro m m' hx
  obtain ⟨_, m1, h1, h2⟩ := X.bind_ok hx
  rw [forkAll_apply] at h1
  cases h1
  cases h2
  exact ⟨Nat.zero_le _, rfl, rfl⟩

theorem plain_leaves {k : Plain} {args rets : List StackType} (h : effect (.plain k) = some (args, rets))
    (ho : ¬ OwnRule (.plain k)) (hw : ¬ Ignored (.plain k)) : LeavesReal (k.execute.getD X.incLine) args.length rets := by
  cases k
  case retsub => cases h
  case bminus => exact (hw .bminus).elim
  case bbitOr => exact (hw .bbitOr).elim
  case extractUint64 => exact (hw .extractUint64).elim
  case stores => exact (ho trivial).elim
  case loads => exact (ho trivial).elim
  case dup => exact (ho trivial).elim
  case dup2 => exact (ho trivial).elim
  case swap => exact (ho trivial).elim
  case sha256 => exact (ho trivial).elim
  case ed25519verify => exact (ho trivial).elim
  case err => cases h; exact .nop fun m m' h => by cases h; exact ⟨rfl, rfl⟩
  case returnOp => cases h; exact .pops (ins := [.uint64]) (.nop fun m m' h => by cases h; exact ⟨rfl, rfl⟩)
  all_goals (cases h; first | exact LeavesReal.simple _ _ | exact LeavesReal.inc)

theorem u8_leaves {k : U8Op} {n : Nat} {args rets : List StackType} (h : effect (.u8 k n) = some (args, rets))
    (ho : ¬ OwnRule (.u8 k n)) : LeavesReal (k.execute n) args.length rets := by
  cases k
  case bury => exact (ho trivial).elim
  case popn => exact (ho trivial).elim
  case dupn => exact (ho trivial).elim
  case dig => exact (ho trivial).elim
  case cover => exact (ho trivial).elim
  case uncover => exact (ho trivial).elim
  case load => exact (ho trivial).elim
  case store => exact (ho trivial).elim
  all_goals (cases h; exact LeavesReal.simple _ _)

theorem field_leaves {k : FieldOp} {f : Nat} {args rets : List StackType} (h : effect (.field k f) = some (args, rets))
    (ho : ¬ OwnRule (.field k f)) : LeavesReal (k.execute f) args.length rets := by
  cases k
  case txn => cases h; exact .field (outs := fun t => [t]) (fun hf => txn_type hf) fun t => .pushes _
  case itxn => cases h; exact .field (outs := fun t => [t]) (fun hf => txn_type hf) fun t => .pushes _
  case globalOp => cases h; exact .field (outs := fun t => [t]) (fun hf => global_type hf) fun t => .pushes _
  case gtxns => cases h; exact .field (outs := fun t => [t]) (fun hf => txn_type hf) fun t => .pops (ins := [.uint64]) (.pushes _)
  case txnas => cases h; exact .pops (ins := [.uint64]) (.field (outs := fun t => [t]) (fun hf => txn_type hf) fun t => .pushes _)
  case itxnas => cases h; exact .pops (ins := [.uint64]) (.field (outs := fun t => [t]) (fun hf => txn_type hf) fun t => .pushes _)
  case gtxnsas =>
    cases h; exact .pops (ins := [.uint64, .uint64]) (.field (outs := fun t => [t]) (fun hf => txn_type hf) fun t => .pushes _)
  case block => cases h; exact .pops (ins := [.uint64]) (.field (outs := fun t => [t]) (fun hf => block_type hf) fun t => .pushes _)
  case assetHoldingGet =>
    cases h
    exact .pops (ins := [.uint64, .any]) (.field (outs := fun t => [t, .uint64]) (fun hf => assetHolding_type hf) fun t => .pushes _)
  case assetParamsGet =>
    cases h; exact .pops (ins := [.uint64]) (.field (outs := fun t => [t, .uint64]) (fun hf => assetParams_type hf) fun t => .pushes _)
  case appParamsGet =>
    cases h; exact .pops (ins := [.uint64]) (.field (outs := fun t => [t, .uint64]) (fun hf => appParams_type hf) fun t => .pushes _)
  case acctParamsGet =>
    cases h; exact .pops (ins := [.any]) (.field (outs := fun t => [t, .uint64]) (fun hf => acctParams_type hf) fun t => .pushes _)
  case ecdsaVerify => exact (ho trivial).elim
  all_goals (cases h; exact LeavesReal.simple _ _)

/-- The instructions of the table leave values of the types in the table. -/
theorem table_leaves (v : Vm) {o : Op} {args rets : List StackType} (h : effect o = some (args, rets))
    (ho : ¬ OwnRule o) (hw : ¬ Ignored o) : LeavesReal (v.executeOp o) args.length rets := by
  unfold Vm.executeOp
  cases o with
  | empty => cases h
  | label _ => cases h
  | pragma _ => cases h
  | comment _ => cases h
  | plain k => exact plain_leaves h ho hw
  | u8 k n => exact u8_leaves h ho
  | u8u8 k a b =>
    cases k
    case proto => cases h
    all_goals (cases h; exact LeavesReal.simple _ _)
  | i8 k i => cases h
  | field k f => exact field_leaves h ho
  | fieldIdx k f i =>
    cases k
    case txna => cases h; exact .field (outs := fun t => [t]) (fun hf => txn_type hf) fun t => .pushes _
    case gtxnsa => cases h; exact .field (outs := fun t => [t]) (fun hf => txn_type hf) fun t => .pops (ins := [.uint64]) (.pushes _)
    case itxna => exact (hw (.itxna f i)).elim
  | groupField k t f =>
    cases k
    case gtxn => cases h; exact .field (outs := fun t => [t]) (fun hf => txn_type hf) fun t => .pushes _
    case gitxn => cases h; exact .field (outs := fun t => [t]) (fun hf => txn_type hf) fun t => .pushes _
    case gtxnas => cases h; exact .pops (ins := [.uint64]) (.field (outs := fun t => [t]) (fun hf => txn_type hf) fun t => .pushes _)
    case gitxnas => cases h; exact .pops (ins := [.uint64]) (.field (outs := fun t => [t]) (fun hf => txn_type hf) fun t => .pushes _)
  | groupFieldIdx k t f i =>
    cases k <;> (cases h; exact .field (outs := fun t => [t]) (fun hf => txn_type hf) fun t => .pushes _)
  | int n => exact (ho trivial).elim
  | pushint n => exact (ho trivial).elim
  | byte b => exact (ho trivial).elim
  | pushbytes b => exact (ho trivial).elim
  | addr a => exact (hw (.addr a)).elim
  | method s => exact (ho trivial).elim
  | intcblock vs => cases h; exact .inc
  | bytecblock vs => cases h; exact .inc
  | pushints vs => exact (ho trivial).elim
  | pushbytess vs => exact (ho trivial).elim
  | branch k t =>
    cases k
    case b => cases h; exact .nop fun m m' h => by cases h; exact ⟨rfl, rfl⟩
    case callsub => exact (ho trivial).elim
    all_goals
      cases h
      show LeavesReal (X.pops [.uint64] >>= fun _ => X.fork v.listing v.breakpoints t >>= fun _ => X.incLine) 1 []
      rw [fork_one]
      exact .pops (ins := [.uint64]) (.forkAll _ _ _)
  | switch ts => cases h; exact .pops (ins := [.uint64]) (.forkAll _ _ _)
  | match_ ts =>
    cases h
    intro m m' hx
    have hx : (X.popN ts.length >>= fun _ => X.pops [.any] >>= fun _ => X.forkAll v.listing v.breakpoints ts >>= fun _ => X.incLine) m = .ok () m' := hx
    obtain ⟨_, m1, h1, h2⟩ := X.bind_ok hx
    obtain ⟨hn, -, rfl⟩ := popN_inv h1
    obtain ⟨h3, h4, h5⟩ := LeavesReal.pops (ins := [.any]) (LeavesReal.forkAll v.listing v.breakpoints ts) _ _ h2
    simp only [List.length_replicate]
    refine ⟨?_, ?_, h5⟩
    · simp at h3; omega
    · rw [h4]; simp

/-! ## What holds of stacks -/

theorem _root_.Teal.Spec.StackHolds.nil {fn : Functions} : StackHolds fn [] [] := ⟨rfl, fun i v x h => by cases h⟩

theorem _root_.Teal.Spec.StackHolds.cons {fn : Functions} {v : VmValue} {x : Val} {vs : List VmValue} {xs : List Val} (h : Holds fn v x)
    (hs : StackHolds fn vs xs) : StackHolds fn (v :: vs) (x :: xs) := by
  refine ⟨by simp [hs.1], fun i w y h1 h2 => ?_⟩
  cases i with
  | zero => cases h1; cases h2; exact h
  | succ i => exact hs.2 i w y h1 h2

theorem _root_.Teal.Spec.StackHolds.cons_inv {fn : Functions} {vs : List VmValue} {x : Val} {xs : List Val} (h : StackHolds fn vs (x :: xs)) :
    ∃ v vs', vs = v :: vs' ∧ Holds fn v x ∧ StackHolds fn vs' xs := by
  cases vs with
  | nil => have := h.1; simp at this
  | cons v vs => exact ⟨v, vs, rfl, h.2 0 v x rfl rfl, by have := h.1; simpa using this, fun i w y h1 h2 => h.2 (i + 1) w y h1 h2⟩

theorem _root_.Teal.Spec.StackHolds.cons_inv' {fn : Functions} {v : VmValue} {vs : List VmValue} {xs : List Val} (h : StackHolds fn (v :: vs) xs) :
    ∃ x xs', xs = x :: xs' ∧ Holds fn v x ∧ StackHolds fn vs xs' := by
  cases xs with
  | nil => have := h.1; simp at this
  | cons x xs => exact ⟨x, xs, rfl, h.2 0 v x rfl rfl, by have := h.1; simpa using this, fun i w y h1 h2 => h.2 (i + 1) w y h1 h2⟩

theorem _root_.Teal.Spec.StackHolds.append {fn : Functions} {vs vs' : List VmValue} {xs xs' : List Val} (h : StackHolds fn vs xs)
    (h' : StackHolds fn vs' xs') : StackHolds fn (vs ++ vs') (xs ++ xs') := by
  refine ⟨by simp [h.1, h'.1], fun i v x h1 h2 => ?_⟩
  by_cases hi : i < vs.length
  · rw [List.getElem?_append_left hi] at h1
    rw [List.getElem?_append_left (by rw [← h.1]; exact hi)] at h2
    exact h.2 i v x h1 h2
  · rw [List.getElem?_append_right (by omega)] at h1
    rw [List.getElem?_append_right (by rw [← h.1]; omega), ← h.1] at h2
    exact h'.2 _ v x h1 h2

theorem _root_.Teal.Spec.StackHolds.drop {fn : Functions} {vs : List VmValue} {xs : List Val} (h : StackHolds fn vs xs) (n : Nat) :
    StackHolds fn (vs.drop n) (xs.drop n) := by
  refine ⟨by simp [h.1], fun i v x h1 h2 => ?_⟩
  rw [List.getElem?_drop] at h1 h2
  exact h.2 _ v x h1 h2

theorem _root_.Teal.Spec.StackHolds.take {fn : Functions} {vs : List VmValue} {xs : List Val} (h : StackHolds fn vs xs) (n : Nat) :
    StackHolds fn (vs.take n) (xs.take n) := by
  refine ⟨by simp [h.1], fun i v x h1 h2 => ?_⟩
  rw [List.getElem?_take] at h1 h2
  split at h1
  · rename_i hi
    rw [if_pos hi] at h2
    exact h.2 _ v x h1 h2
  · cases h1

theorem _root_.Teal.Spec.StackHolds.reverse {fn : Functions} {vs : List VmValue} {xs : List Val} (h : StackHolds fn vs xs) :
    StackHolds fn vs.reverse xs.reverse := by
  refine ⟨by simp [h.1], fun i v x h1 h2 => ?_⟩
  have hi : i < vs.length := by have := (List.getElem?_eq_some_iff.1 h1).1; simpa using this
  rw [List.getElem?_reverse hi] at h1
  rw [List.getElem?_reverse (by rw [← h.1]; exact hi), ← h.1] at h2
  exact h.2 _ v x h1 h2

theorem _root_.Teal.Spec.StackHolds.set {fn : Functions} {vs : List VmValue} {xs : List Val} (h : StackHolds fn vs xs) {v : VmValue} {x : Val}
    (hx : Holds fn v x) (n : Nat) : StackHolds fn (vs.set n v) (xs.set n x) := by
  refine ⟨by simp [h.1], fun i w y h1 h2 => ?_⟩
  rcases getElem?_set_cases h1 with ⟨rfl, rfl⟩ | ⟨hne, h1⟩
  · rcases getElem?_set_cases h2 with ⟨_, rfl⟩ | ⟨hne, _⟩
    · exact hx
    · exact (hne rfl).elim
  · rcases getElem?_set_cases h2 with ⟨rfl, _⟩ | ⟨_, h2⟩
    · exact (hne rfl).elim
    · exact h.2 i w y h1 h2

theorem _root_.Teal.Spec.StackHolds.replicate {fn : Functions} {v : VmValue} {x : Val} (h : Holds fn v x) (n : Nat) :
    StackHolds fn (List.replicate n v) (List.replicate n x) := by
  induction n with
  | zero => exact .nil
  | succ n ih => exact .cons h ih

theorem _root_.Teal.Spec.StackHolds.types {fn : Functions} {ts : List StackType} {xs : List Val} (h : OfTypes ts xs) :
    StackHolds fn (ts.map fun t => (⟨t, .none⟩ : VmValue)).reverse xs := by
  refine ⟨by simp [h.1], fun i v x h1 h2 => ?_⟩
  rw [← List.map_reverse, List.getElem?_map] at h1
  cases ht : ts.reverse[i]? with
  | none => rw [ht] at h1; cases h1
  | some t =>
    rw [ht] at h1
    cases h1
    have := h.2 i t x ht h2
    refine ⟨?_, trivial⟩
    cases t
    case none => exact this.elim
    all_goals exact this

/-! ## Frames -/

/-- The innermost calls are those of the machine's frames. -/
def FramesHold : List VmFrame → List Activation → Prop
  | [], _ => True
  | _ :: _, [] => False
  | f :: fs, c :: cs => f.p = c.height % 256 ∧ (f.numArgs, f.numReturns) = c.proto.getD (0, 0) ∧ FramesHold fs cs

/-- What an instruction preserves. -/
def Sound (fn : Functions) (m : Mach) (r : Real) : Prop :=
  StackHolds fn m.br.stack r.stack ∧ ScratchHolds fn m.scratch r.scratch ∧ FramesHold m.br.frames r.calls

theorem _root_.Teal.Spec.ScratchHolds.set {fn : Functions} {vs : List VmValue} {f : Nat → Val} (h : ScratchHolds fn vs f) {v : VmValue} {x : Val}
    (hx : Holds fn v x) (n : Nat) : ScratchHolds fn (vs.set n v) (fun i => if i = n then x else f i) := by
  intro i w hw
  rcases getElem?_set_cases hw with ⟨rfl, rfl⟩ | ⟨hne, h1⟩
  · simp only [if_true]; exact hx
  · simp only [if_neg hne]; exact h i w h1

theorem exec_frames {v : Vm} {o : Op} {m m' : Mach} (h : v.executeOp o m = .ok () m') (h1 : ∀ t, o ≠ .branch .callsub t)
    (h2 : o ≠ .plain .retsub) (h3 : ∀ a r, o ≠ .u8u8 .proto a r) : m'.br.frames = m.br.frames := by
  have hs := executeOp_spec v o m
  rw [h] at hs
  generalize hr : (XRes.ok () m') = r at hs
  cases hs with
  | hang n _ _ => cases hr
  | panic e m' _ => cases hr
  | straight m1 _ _ _ hc => cases hr; obtain ⟨s, sc, -, rfl⟩ := hc; rfl
  | proto a r f fs ho _ => exact (h3 _ _ ho).elim
  | exit m1 _ hc => cases hr; obtain ⟨s, sc, -, rfl⟩ := hc; rfl
  | jump t _ => cases hr; rfl
  | call t ho => exact (h1 _ ho).elim
  | ret f fs m1 ho _ hc => exact (h2 ho).elim
  | retNone ho _ => exact (h2 ho).elim
  | fork ts m1 _ hc => cases hr; obtain ⟨s, sc, -, rfl⟩ := hc; rfl

theorem ok_inj {α : Type} {a : α} {m m' : Mach} {x : XRes α} (h : x = .ok a m) (h' : x = .ok a m') : m' = m := by
  rw [h] at h'; cases h'; rfl

theorem rearranges_sound {fn : Functions} {v : Vm} {o : Op} {m m' : Mach} {r : Real} {s : List Val} (h : v.executeOp o m = .ok () m')
    (hm : Sound fn m r) (hd : ¬ Differs m.br.stack m.br.frames r o) (ho : Rearranges o r.stack s) :
    StackHolds fn m'.br.stack s ∧ m'.scratch = m.scratch := by
  obtain ⟨hst, -, -⟩ := hm
  generalize hrs : r.stack = rs at ho hst
  cases ho with
  | swap a b t =>
    obtain ⟨v1, vs1, e1, h1, hst⟩ := hst.cons_inv
    obtain ⟨v2, vs2, rfl, h2, hst⟩ := hst.cons_inv
    rw [ok_inj (swap_ok e1) h]
    exact ⟨.cons h2 (.cons h1 hst), rfl⟩
  | dup a t =>
    obtain ⟨v1, vs1, e1, h1, hst⟩ := hst.cons_inv
    rw [ok_inj (dup_ok e1) h]
    exact ⟨.cons h1 (.cons h1 hst), rfl⟩
  | dup2 a b t => exact (hd .dup2).elim
  | dig n a t ha =>
    have hl : m.br.stack.length ≤ 256 := by
      apply Classical.byContradiction
      intro hc; exact hd (.dig n (by omega))
    have hn : n < m.br.stack.length := by rw [hst.1]; exact (List.getElem?_eq_some_iff.1 ha).1
    have e := List.getElem?_eq_getElem hn
    rw [ok_inj (dig_ok e hl) h]
    exact ⟨.cons (hst.2 _ _ _ e ha) hst, rfl⟩
  | cover n a xs t hx =>
    obtain ⟨v1, vs1, e1, h1, hst⟩ := hst.cons_inv
    have hl := hst.1
    rw [List.length_append] at hl
    rw [ok_inj (cover_ok e1 (by omega)) h]
    refine ⟨?_, rfl⟩
    have g1 := hst.take n
    have g2 := hst.drop n
    rw [← hx, List.take_left] at g1
    rw [← hx, List.drop_left] at g2
    show StackHolds fn (vs1.take n ++ v1 :: vs1.drop n) _
    rw [← hx]
    exact g1.append (.cons h1 g2)
  | uncover n a xs t hx =>
    subst hx
    have hl := hst.1
    rw [List.length_append, List.length_cons] at hl
    have hn : xs.length < m.br.stack.length := by omega
    have e := List.getElem?_eq_getElem hn
    rw [ok_inj (uncover_ok e) h]
    refine ⟨?_, rfl⟩
    have g0 := hst.2 xs.length _ a e (by simp)
    have g1 := hst.take xs.length
    have g2 := hst.drop (xs.length + 1)
    rw [List.take_left] at g1
    rw [show (xs ++ a :: t).drop (xs.length + 1) = t by rw [List.drop_append]; simp] at g2
    exact .cons g0 (g1.append g2)
  | bury n a xs x t hx =>
    have hl : m.br.stack.length = 2 * n + 1 := by
      apply Classical.byContradiction
      intro hc; exact hd (.bury n hc)
    obtain ⟨v1, vs1, e1, h1, hst⟩ := hst.cons_inv
    rw [e1, List.length_cons] at hl
    rw [ok_inj (bury_ok e1 (by omega)) h]
    refine ⟨?_, rfl⟩
    have hlen := hst.1
    rw [List.length_append, List.length_cons] at hlen
    have g := (hst.reverse.set h1 n).reverse
    have e : ((xs ++ x :: t).reverse.set n a).reverse = xs ++ a :: t := by
      have : n = t.reverse.length := by rw [List.length_reverse]; omega
      rw [List.reverse_append, List.reverse_cons, List.append_assoc, this]
      simp
    rw [e] at g
    exact g
  | popn n xs _ hx =>
    have hl := hst.1
    rw [List.length_append] at hl
    rw [ok_inj (popn_ok (by omega)) h]
    have g := hst.drop n
    rw [← hx, List.drop_left] at g
    refine ⟨?_, rfl⟩
    show StackHolds fn (m.br.stack.drop n) _
    rw [← hx]; exact g
  | dupn n a t =>
    obtain ⟨v1, vs1, e1, h1, hst⟩ := hst.cons_inv
    by_cases hn : n < 255
    · rw [ok_inj (dupn_ok e1 hn) h]
      exact ⟨(StackHolds.replicate h1 _).append hst, rfl⟩
    · have h : U8Op.execute n .dupn m = .ok () m' := h
      unfold U8Op.execute at h
      dsimp only at h
      rw [X.ok_bind (pop_ok e1 (.inl rfl)), if_pos (by omega)] at h
      cases h

theorem exec_sound {fn : Functions} {v : Vm} {o : Op} {m m' : Mach} {r r' : Real} (h : v.executeOp o m = .ok () m')
    (hm : Sound fn m r) (hd : ¬ Differs m.br.stack m.br.frames r o) (ho : Does fn o r r') : Sound fn m' r' := by
  cases ho with
  | constants hc =>
    cases hc with
    | int n => cases h; exact ⟨.cons ⟨⟨n, rfl⟩, rfl⟩ hm.1, hm.2⟩
    | pushint n => cases h; exact ⟨.cons ⟨⟨n, rfl⟩, trivial⟩ hm.1, hm.2⟩
    | pushints ns => exact (hd (.ignored (.pushints ns))).elim
    | byte b => cases h; exact ⟨.cons ⟨⟨b, rfl⟩, rfl⟩ hm.1, hm.2⟩
    | pushbytes b => cases h; exact ⟨.cons ⟨⟨b, rfl⟩, rfl⟩ hm.1, hm.2⟩
    | pushbytess bs =>
      have h : (X.pushAll (bs.map fun v => ⟨.bytes, .bytes v⟩) >>= fun _ => X.incLine) m = .ok () m' := h
      rw [X.ok_bind (pushAll_ok _ _)] at h
      cases h
      refine ⟨StackHolds.append ?_ hm.1, hm.2⟩
      rw [← List.map_reverse]
      refine ⟨by simp, fun i w x h1 h2 => ?_⟩
      rw [List.getElem?_map] at h1 h2
      cases hb : bs.reverse[i]? with
      | none => rw [hb] at h1; cases h1
      | some b => rw [hb] at h1 h2; cases h1; cases h2; exact ⟨⟨b, rfl⟩, rfl⟩
    | method s => cases h; exact ⟨.cons ⟨⟨_, rfl⟩, rfl⟩ hm.1, hm.2⟩
  | load n =>
    have h : (X.scratchAt n >>= fun v => X.push ⟨.any, .val v.t v.src⟩ >>= fun _ => X.incLine) m = .ok () m' := h
    obtain ⟨w, m1, h1, h2⟩ := X.bind_ok h
    unfold X.scratchAt at h1
    cases hs : m.scratch[n]? with
    | none => rw [hs] at h1; cases h1
    | some y =>
      rw [hs] at h1
      cases h1
      cases h2
      exact ⟨.cons ⟨trivial, hm.2.1 n _ hs⟩ hm.1, hm.2⟩
  | store n hs =>
    have h : (X.pop .any >>= fun v => X.store ⟨.uint64, .uint n⟩ v >>= fun _ => X.incLine) m = .ok () m' := h
    have hst := hm.1
    rw [hs] at hst
    obtain ⟨v1, vs1, e1, h1, hst⟩ := hst.cons_inv
    rw [X.ok_bind (pop_ok e1 (.inl rfl))] at h
    obtain ⟨_, m1, h2, h3⟩ := X.bind_ok h
    unfold X.store at h2
    dsimp only at h2
    split at h2
    · cases h2
      cases h3
      exact ⟨hst, hm.2.1.set h1 n, hm.2.2⟩
    · cases h2
  | loads hs hlt =>
    have hst := hm.1
    rw [hs] at hst
    obtain ⟨v1, vs1, e1, h1, hst⟩ := hst.cons_inv
    obtain ⟨-, h2, h3⟩ := LeavesReal.simple [.uint64] [.any] m m' h
    refine ⟨?_, by rw [h3]; exact hm.2.1, by
      rw [exec_frames h (by intro t h; cases h) (by intro h; cases h) (by intro a b h; cases h)]; exact hm.2.2⟩
    rw [h2, e1]
    exact .cons ⟨trivial, trivial⟩ hst
  | stores hs hlt =>
    have h : (X.pop .any >>= fun v => X.pop .uint64 >>= fun i => X.store i v >>= fun _ => X.incLine) m = .ok () m' := h
    have hst := hm.1
    rw [hs] at hst
    obtain ⟨v1, vs1, e1, h1, hst⟩ := hst.cons_inv
    obtain ⟨v2, vs2, rfl, h2, hst⟩ := hst.cons_inv
    rw [X.ok_bind (pop_ok e1 (.inl rfl))] at h
    obtain ⟨i, m1, h3, h4⟩ := X.bind_ok h
    obtain ⟨h5, h6, -⟩ := pop_inv h3
    have e : v2 = i ∧ vs2 = m1.br.stack := List.cons.inj h5
    obtain ⟨rfl, e2⟩ := e
    obtain ⟨_, m2, h7, h8⟩ := X.bind_ok h4
    have hn : ∃ k, v2.src = .uint k := by
      apply Classical.byContradiction
      intro hc
      exact hd (.stores e1 fun k hk => hc ⟨k, hk⟩)
    obtain ⟨k, hk⟩ := hn
    have hk2 := h2.2
    rw [hk] at hk2
    cases hk2
    unfold X.store at h7
    rw [hk] at h7
    dsimp only at h7
    rw [h6] at h7
    split at h7
    · cases h7
      cases h8
      refine ⟨?_, hm.2.1.set h1 _, hm.2.2⟩
      show StackHolds fn m1.br.stack _
      rw [← e2]; exact hst
    · cases h7
  | rearranges hr =>
    obtain ⟨h1, h2⟩ := rearranges_sound h hm hd hr
    refine ⟨h1, by rw [h2]; exact hm.2.1, ?_⟩
    rw [exec_frames h (by intro t h; cases h; cases hr) (by intro h; cases h; cases hr) (by intro a b h; cases h; cases hr)]
    exact hm.2.2
  | sha256 hs =>
    have h : (X.pop .bytes >>= fun v => X.push ⟨.bytes, .sha256 v.t v.src⟩ >>= fun _ => X.incLine) m = .ok () m' := h
    have hst := hm.1
    rw [hs] at hst
    obtain ⟨v1, vs1, e1, h1, hst⟩ := hst.cons_inv
    obtain ⟨i, m1, h3, h4⟩ := X.bind_ok h
    obtain ⟨h5, h6, -⟩ := pop_inv h3
    rw [e1] at h5
    obtain ⟨rfl, rfl⟩ := List.cons.inj h5
    rw [h6] at h4
    cases h4
    exact ⟨.cons ⟨⟨_, rfl⟩, _, h1.1, h1.2, rfl⟩ hst, hm.2⟩
  | ed25519verify hs =>
    have h : (X.pop .bytes >>= fun v1 => X.pop .bytes >>= fun v2 => X.pop .bytes >>= fun v3 =>
      X.push ⟨.uint64, .ed25519verify v1.t v1.src v2.t v2.src v3.t v3.src⟩ >>= fun _ => X.incLine) m = .ok () m' := h
    have hst := hm.1
    rw [hs] at hst
    obtain ⟨v1, vs1, e1, g1, hst⟩ := hst.cons_inv
    obtain ⟨v2, vs2, rfl, g2, hst⟩ := hst.cons_inv
    obtain ⟨v3, vs3, rfl, g3, hst⟩ := hst.cons_inv
    obtain ⟨i, m1, h3, h⟩ := X.bind_ok h
    obtain ⟨h5, h6, -⟩ := pop_inv h3
    rw [e1] at h5
    obtain ⟨rfl, e⟩ := List.cons.inj h5
    rw [h6, ← e] at h
    obtain ⟨i, m2, h3, h⟩ := X.bind_ok h
    obtain ⟨h5, h7, -⟩ := pop_inv h3
    obtain ⟨rfl, e⟩ := List.cons.inj h5
    rw [h7, ← e] at h
    obtain ⟨i, m3, h3, h⟩ := X.bind_ok h
    obtain ⟨h5, h8, -⟩ := pop_inv h3
    obtain ⟨rfl, e⟩ := List.cons.inj h5
    rw [h8, ← e] at h
    cases h
    exact ⟨.cons ⟨⟨_, rfl⟩, _, _, _, g1.1, g1.2, g2.1, g2.2, g3.1, g3.2, rfl⟩ hst, hm.2⟩
  | ecdsaVerify f hs =>
    have h : (X.pop .bytes >>= fun v1 => X.pop .bytes >>= fun v2 => X.pop .bytes >>= fun v3 => X.pop .bytes >>= fun v4 => X.pop .bytes >>= fun v5 =>
      X.push ⟨.uint64, .ecdsaVerify v1.t v1.src v2.t v2.src v3.t v3.src v4.t v4.src v5.t v5.src⟩ >>= fun _ => X.incLine) m = .ok () m' := h
    have hst := hm.1
    rw [hs] at hst
    obtain ⟨v1, vs1, e1, g1, hst⟩ := hst.cons_inv
    obtain ⟨v2, vs2, rfl, g2, hst⟩ := hst.cons_inv
    obtain ⟨v3, vs3, rfl, g3, hst⟩ := hst.cons_inv
    obtain ⟨v4, vs4, rfl, g4, hst⟩ := hst.cons_inv
    obtain ⟨v5, vs5, rfl, g5, hst⟩ := hst.cons_inv
    obtain ⟨i, m1, h3, h⟩ := X.bind_ok h
    obtain ⟨h5, h6, -⟩ := pop_inv h3
    rw [e1] at h5
    obtain ⟨rfl, e⟩ := List.cons.inj h5
    rw [h6, ← e] at h
    obtain ⟨i, m2, h3, h⟩ := X.bind_ok h
    obtain ⟨h5, h7, -⟩ := pop_inv h3
    obtain ⟨rfl, e⟩ := List.cons.inj h5
    rw [h7, ← e] at h
    obtain ⟨i, m3, h3, h⟩ := X.bind_ok h
    obtain ⟨h5, h8, -⟩ := pop_inv h3
    obtain ⟨rfl, e⟩ := List.cons.inj h5
    rw [h8, ← e] at h
    obtain ⟨i, m4, h3, h⟩ := X.bind_ok h
    obtain ⟨h5, h9, -⟩ := pop_inv h3
    obtain ⟨rfl, e⟩ := List.cons.inj h5
    rw [h9, ← e] at h
    obtain ⟨i, m5, h3, h⟩ := X.bind_ok h
    obtain ⟨h5, h10, -⟩ := pop_inv h3
    obtain ⟨rfl, e⟩ := List.cons.inj h5
    rw [h10, ← e] at h
    cases h
    exact ⟨.cons ⟨⟨_, rfl⟩, f, _, _, _, _, _, g1.1, g1.2, g2.1, g2.2, g3.1, g3.2, g4.1, g4.2, g5.1, g5.2, rfl⟩ hst, hm.2⟩
  | callsub t =>
    cases h
    exact ⟨hm.1, hm.2.1, by show _ % _ = _ % _; rw [hm.1.1], rfl, hm.2.2⟩
  | proto a n hc ha =>
    have h : (X.prepare a n >>= fun _ => X.incLine) m = .ok () m' := h
    obtain ⟨_, m1, h1, h2⟩ := X.bind_ok h
    unfold X.prepare at h1
    cases hf : m.br.frames with
    | nil => rw [hf] at h1; cases h1
    | cons f fs =>
      rw [hf] at h1
      cases h1
      cases h2
      have := hm.2.2
      rw [hf, hc] at this
      exact ⟨hm.1, hm.2.1, this.1, rfl, this.2.2⟩
  | frame hc ha =>
    rename_i c cs s
    have hf := hm.2.2
    rw [hc] at hf
    have key : ∀ {f : VmFrame} {i : Int} {slot : Nat} {k : I8Op}, o = .i8 k i → f.p = c.height % 256 → (slot : Int) = c.height + i →
        frameIndex f.p i = slot := by
      intro f i slot k ho hp hs
      subst ho
      have : ¬ 256 ≤ (c.height : Int) + i := fun hc' => hd (.frame k i hc hc')
      unfold frameIndex
      rw [hp]
      omega
    have hst := hm.1
    generalize hrs : r.stack = rs at ha hst
    cases ha with
    | dig i slot x t hslot hx =>
      have h : (X.topFrame >>= fun f => X.itemAt (frameIndex f.p i) >>= fun v => X.push v >>= fun _ => X.incLine) m = .ok () m' := h
      obtain ⟨f, m1, h1, h2⟩ := X.bind_ok h
      unfold X.topFrame at h1
      cases hfr : m.br.frames with
      | nil => rw [hfr] at h1; cases h1
      | cons f0 fs =>
        rw [hfr] at h1 hf
        cases h1
        rw [key rfl hf.1 hslot] at h2
        obtain ⟨w, m2, h3, h4⟩ := X.bind_ok h2
        unfold X.itemAt at h3
        cases hi : m.br.stack.reverse[slot]? with
        | none => rw [hi] at h3; cases h3
        | some y =>
          rw [hi] at h3
          cases h3
          cases h4
          exact ⟨.cons (hst.reverse.2 _ _ _ hi hx) hst, hm.2⟩
    | bury i slot a t hslot hx =>
      have h : (X.topFrame >>= fun f => X.pop .any >>= fun v => X.replace (frameIndex f.p i) v >>= fun _ => X.incLine) m = .ok () m' := h
      obtain ⟨f, m1, h1, h2⟩ := X.bind_ok h
      unfold X.topFrame at h1
      cases hfr : m.br.frames with
      | nil => rw [hfr] at h1; cases h1
      | cons f0 fs =>
        rw [hfr] at h1 hf
        cases h1
        rw [key rfl hf.1 hslot] at h2
        obtain ⟨v1, vs1, e1, g1, hst⟩ := hst.cons_inv
        rw [X.ok_bind (pop_ok e1 (.inl rfl))] at h2
        obtain ⟨_, m2, h3, h4⟩ := X.bind_ok h2
        unfold X.replace at h3
        split at h3
        · cases h3
          cases h4
          exact ⟨(hst.reverse.set g1 slot).reverse, hm.2⟩
        · cases h3
  | retsub hc =>
    have hf := hm.2.2
    rw [hc] at hf
    cases hfr : m.br.frames with
    | nil => exact (hd (.lost hfr)).elim
    | cons f fs =>
      rw [hfr] at hf
      have h : X.retsub m = .ok () m' := h
      unfold X.retsub at h
      rw [hfr] at h
      dsimp only at h
      obtain ⟨-, e, hf⟩ := hf
      obtain ⟨e1, e2⟩ := Prod.mk.inj e
      rw [e1, e2] at h
      cases h
      exact ⟨hm.1, hm.2.1, hf⟩
  | retsubProto hc hl =>
    rename_i h0 a n cs
    have hf := hm.2.2
    rw [hc] at hf
    cases hfr : m.br.frames with
    | nil => exact (hd (.lost hfr)).elim
    | cons f fs =>
      rw [hfr] at hf
      have h : X.retsub m = .ok () m' := h
      unfold X.retsub at h
      rw [hfr] at h
      dsimp only at h
      obtain ⟨-, e, hf⟩ := hf
      obtain ⟨e1, e2⟩ := Prod.mk.inj e
      rw [e1, e2] at h
      obtain ⟨rs, m1, h1, h⟩ := X.bind_ok h
      obtain ⟨l1, rfl, rfl⟩ := popN_inv h1
      obtain ⟨as, m2, h2, h⟩ := X.bind_ok h
      obtain ⟨l2, rfl, rfl⟩ := popN_inv h2
      rw [X.ok_bind (pushAll_ok _ _)] at h
      cases h
      have hlen : r.stack.length = h0 + n := by
        apply Classical.byContradiction
        intro hc'; exact hd (.leftOver hc hc')
      have hst := hm.1
      refine ⟨?_, hm.2.1, hf⟩
      have l2 : a ≤ (m.br.stack.drop n).length := l2
      rw [List.length_drop, hst.1, hlen] at l2
      show StackHolds fn ((m.br.stack.take n).reverse.reverse ++ (m.br.stack.drop n).drop a) (afterReturn h0 a n r.stack)
      unfold afterReturn
      rw [List.reverse_reverse, List.drop_drop, show r.stack.length - (h0 - a) = n + a by omega]
      exact (hst.take n).append (hst.drop _)
  | table he hown hs hxs hys =>
    rename_i args rets xs ys s
    obtain ⟨h1, h2, h3⟩ := table_leaves v he hown (fun hi => hd (.ignored hi)) m m' h
    refine ⟨?_, by rw [h3]; exact hm.2.1, ?_⟩
    · rw [h2]
      have := hm.1.drop args.length
      rw [hs, ← hxs.1, List.drop_left] at this
      rw [← hxs.1]
      exact (StackHolds.types hys).append this
    · rw [exec_frames h (by rintro t rfl; exact hown trivial) (by rintro rfl; exact hown trivial) (by rintro a b rfl; exact hown trivial)]
      exact hm.2.2

/-! ## What does not write to the scratch space -/

/-- `x` does not write to the scratch space. -/
def KeepsScratch {α : Type} (x : X α) : Prop := ∀ m a m', x m = .ok a m' → m'.scratch = m.scratch

theorem KeepsScratch.bind {α β : Type} {x : X α} {f : α → X β} (hx : KeepsScratch x) (hf : ∀ a, KeepsScratch (f a)) : KeepsScratch (x >>= f) := by
  intro m a m' h
  obtain ⟨b, m1, h1, h2⟩ := X.bind_ok h
  rw [hf b _ _ _ h2, hx _ _ _ h1]

theorem KeepsScratch.pure {α : Type} (a : α) : KeepsScratch (pure a : X α) := by intro m a m' h; cases h; rfl
theorem KeepsScratch.modify (f : VmBranch → VmBranch) : KeepsScratch (X.modifyBr f) := by intro m a m' h; cases h; rfl
theorem KeepsScratch.pop (t : StackType) : KeepsScratch (X.pop t) := by
  intro m a m' h; rw [(pop_inv h).2.1]; rfl
theorem KeepsScratch.popN (n : Nat) : KeepsScratch (X.popN n) := by
  intro m a m' h; rw [(popN_inv h).2.2]; rfl
theorem KeepsScratch.pops (ts : List StackType) : KeepsScratch (X.pops ts) := by
  intro m a m' h; rw [(pops_inv h).2]; rfl
theorem KeepsScratch.pushAll (vs : List VmValue) : KeepsScratch (X.pushAll vs) := by
  intro m a m' h; rw [pushAll_ok] at h; cases h; rfl
theorem KeepsScratch.pushes (ts : List StackType) : KeepsScratch (X.pushes ts) := by
  intro m a m' h; rw [pushes_ok] at h; cases h; rfl
theorem KeepsScratch.simple (ins outs : List StackType) : KeepsScratch (X.simple ins outs) :=
  (KeepsScratch.pops _).bind fun _ => (KeepsScratch.pushes _).bind fun _ => .modify _
theorem KeepsScratch.fieldType (g : FieldGroup) (f : Nat) : KeepsScratch (X.fieldType g f) := by
  unfold X.fieldType
  split
  · exact .pure _
  · intro m a m' h; cases h
theorem KeepsScratch.scratchAt (n : Nat) : KeepsScratch (X.scratchAt n) := by
  intro m a m' h; unfold X.scratchAt at h; split at h <;> cases h; rfl
theorem KeepsScratch.itemAt (n : Nat) : KeepsScratch (X.itemAt n) := by
  intro m a m' h; unfold X.itemAt at h; split at h <;> cases h; rfl
theorem KeepsScratch.replace (n : Nat) (v : VmValue) : KeepsScratch (X.replace n v) := by
  intro m a m' h; unfold X.replace at h; split at h <;> cases h; rfl
theorem KeepsScratch.prepare (a r : Nat) : KeepsScratch (X.prepare a r) := by
  intro m a m' h; unfold X.prepare at h; split at h <;> cases h; rfl
theorem KeepsScratch.topFrame : KeepsScratch X.topFrame := by
  intro m a m' h; unfold X.topFrame at h; split at h <;> cases h; rfl
theorem KeepsScratch.forkAll (l : List Op) (bps : List Nat) (ts : List Bytes) : KeepsScratch (X.forkAll l bps ts) := by
  intro m a m' h; rw [forkAll_apply] at h; cases h; rfl
theorem KeepsScratch.loop : KeepsScratch X.loop := by intro m a m' h; cases h
theorem KeepsScratch.retsub : KeepsScratch X.retsub := by
  intro m a m' h
  unfold X.retsub at h
  split at h
  · cases h; rfl
  · exact ((KeepsScratch.popN _).bind fun _ => (KeepsScratch.popN _).bind fun _ => (KeepsScratch.pushAll _).bind fun _ => .modify _) _ _ _ h

/-- Only `store` and `stores` write to the scratch space. -/
theorem exec_scratch {v : Vm} {o : Op} {m m' : Mach} (h : v.executeOp o m = .ok () m') (hw : ¬ Saves o) : m'.scratch = m.scratch := by
  suffices KeepsScratch (v.executeOp o) from this _ _ _ h
  unfold Vm.executeOp
  have field : ∀ (g : FieldGroup) (f : Nat) (ins : List StackType) (outs : StackType → List StackType),
      KeepsScratch (X.pops ins >>= fun _ => X.fieldType g f >>= fun t => X.pushes (outs t) >>= fun _ => X.incLine) := fun g f ins outs =>
    (KeepsScratch.pops _).bind fun _ => (KeepsScratch.fieldType _ _).bind fun _ => (KeepsScratch.pushes _).bind fun _ => .modify _
  have field2 : ∀ (g : FieldGroup) (f : Nat), KeepsScratch (X.fieldType g f >>= fun t => X.pushes [t] >>= fun _ => X.incLine) := fun g f =>
    (KeepsScratch.fieldType _ _).bind fun _ => (KeepsScratch.pushes _).bind fun _ => .modify _
  have field3 : ∀ (g : FieldGroup) (f : Nat) (ins : List StackType),
      KeepsScratch (X.fieldType g f >>= fun t => X.pops ins >>= fun _ => X.pushes [t] >>= fun _ => X.incLine) := fun g f ins =>
    (KeepsScratch.fieldType _ _).bind fun _ => (KeepsScratch.pops _).bind fun _ => (KeepsScratch.pushes _).bind fun _ => .modify _
  cases o with
  | plain k =>
    cases k
    case stores => exact (hw .stores).elim
    case retsub => exact .retsub
    case sha256 => exact (KeepsScratch.pop _).bind fun _ => (KeepsScratch.modify _).bind fun _ => .modify _
    case ed25519verify =>
      exact (KeepsScratch.pop _).bind fun _ => (KeepsScratch.pop _).bind fun _ => (KeepsScratch.pop _).bind fun _ => (KeepsScratch.modify _).bind fun _ => .modify _
    case dup => exact (KeepsScratch.pop _).bind fun _ => (KeepsScratch.pushAll _).bind fun _ => .modify _
    case dup2 => exact (KeepsScratch.pop _).bind fun _ => (KeepsScratch.pop _).bind fun _ => (KeepsScratch.pushAll _).bind fun _ => .modify _
    case swap => exact (KeepsScratch.pop _).bind fun _ => (KeepsScratch.pop _).bind fun _ => (KeepsScratch.pushAll _).bind fun _ => .modify _
    case returnOp => exact (KeepsScratch.pops _).bind fun _ => .modify _
    all_goals first | exact KeepsScratch.simple _ _ | exact KeepsScratch.modify _
  | u8 k n =>
    cases k
    case store => exact (hw (.store n)).elim
    case load => exact (KeepsScratch.scratchAt _).bind fun _ => (KeepsScratch.modify _).bind fun _ => .modify _
    case bury => exact (KeepsScratch.pop _).bind fun _ => (KeepsScratch.replace _ _).bind fun _ => .modify _
    case popn => exact (KeepsScratch.popN _).bind fun _ => .modify _
    case dupn =>
      show KeepsScratch (U8Op.execute n .dupn)
      unfold U8Op.execute
      dsimp only
      refine (KeepsScratch.pop _).bind fun _ => ?_
      split
      · exact KeepsScratch.loop.bind fun _ => .modify _
      · exact (KeepsScratch.pushAll _).bind fun _ => .modify _
    case dig =>
      intro m a m' h
      exact ((KeepsScratch.itemAt _).bind fun _ => (KeepsScratch.modify _).bind fun _ => .modify _) _ _ _ h
    case cover =>
      exact (KeepsScratch.pop _).bind fun _ => (KeepsScratch.popN _).bind fun _ => (KeepsScratch.modify _).bind fun _ => (KeepsScratch.pushAll _).bind fun _ => .modify _
    case uncover =>
      exact (KeepsScratch.popN _).bind fun _ => (KeepsScratch.pop _).bind fun _ => (KeepsScratch.pushAll _).bind fun _ => (KeepsScratch.modify _).bind fun _ => .modify _
    all_goals exact KeepsScratch.simple _ _
  | u8u8 k a b =>
    cases k
    case proto => exact (KeepsScratch.prepare _ _).bind fun _ => .modify _
    all_goals exact KeepsScratch.simple _ _
  | i8 k i =>
    cases k
    · exact KeepsScratch.topFrame.bind fun _ => (KeepsScratch.itemAt _).bind fun _ => (KeepsScratch.modify _).bind fun _ => .modify _
    · exact KeepsScratch.topFrame.bind fun _ => (KeepsScratch.pop _).bind fun _ => (KeepsScratch.replace _ _).bind fun _ => .modify _
  | field k f =>
    cases k
    case ecdsaVerify =>
      exact (KeepsScratch.pop _).bind fun _ => (KeepsScratch.pop _).bind fun _ => (KeepsScratch.pop _).bind fun _ => (KeepsScratch.pop _).bind fun _ =>
        (KeepsScratch.pop _).bind fun _ => (KeepsScratch.modify _).bind fun _ => .modify _
    all_goals first
      | exact KeepsScratch.simple _ _
      | exact field2 _ _
      | exact field3 _ _ _
      | exact field _ _ _ (fun t => [t])
      | exact field _ _ _ (fun t => [t, .uint64])
  | fieldIdx k f i =>
    cases k
    all_goals first
      | exact field2 _ _
      | exact field3 _ _ _
      | exact KeepsScratch.modify _
  | groupField k t f =>
    cases k
    all_goals first
      | exact field2 _ _
      | exact field _ _ _ (fun t => [t])
  | groupFieldIdx k t f i =>
    cases k
    all_goals exact field2 _ _
  | pushints vs => exact (KeepsScratch.pushes _).bind fun _ => .modify _
  | pushbytess vs => exact (KeepsScratch.pushAll _).bind fun _ => .modify _
  | pushint n => exact KeepsScratch.simple _ _
  | int n => exact (KeepsScratch.modify _).bind fun _ => .modify _
  | byte n => exact (KeepsScratch.modify _).bind fun _ => .modify _
  | pushbytes n => exact (KeepsScratch.modify _).bind fun _ => .modify _
  | method n => exact (KeepsScratch.modify _).bind fun _ => .modify _
  | branch k t =>
    cases k
    case b => exact KeepsScratch.modify fun b => { b with line := findLabel v.listing t }
    case callsub => intro m a m' h; cases h; rfl
    all_goals
      show KeepsScratch (X.pops [.uint64] >>= fun _ => X.fork v.listing v.breakpoints t >>= fun _ => X.incLine)
      rw [fork_one]
      exact (KeepsScratch.pops _).bind fun _ => (KeepsScratch.forkAll _ _ _).bind fun _ => .modify _
  | switch ts => exact (KeepsScratch.pops _).bind fun _ => (KeepsScratch.forkAll _ _ _).bind fun _ => .modify _
  | match_ ts => exact (KeepsScratch.popN _).bind fun _ => (KeepsScratch.pops _).bind fun _ => (KeepsScratch.forkAll _ _ _).bind fun _ => .modify _
  | _ => exact KeepsScratch.modify _

/-! ## Sessions -/

theorem append_ne {α : Type} (l : List α) (a : α) : l ≠ l ++ [a] := by
  intro h
  have := congrArg List.length h
  simp at this

/-- A step that executes something. -/
theorem step_executed {v w : Vm} (hv : Inv v) (h : v.step = some w) (he : w.error = none) {k : Nat} {o : Op} (hx : Executed v w k o) :
    ∃ b i c m, Acts v k b i o ∧ v.executeOp o (v.mach b o c) = .ok () m ∧ Finished v k m w := by
  obtain ⟨b, b', hb, hb', ht⟩ := hx
  have hs := step_spec hv
  rw [h] at hs
  generalize hr : some w = r at hs
  have ofStart : ∀ {x}, v.start.branches[k]? = some x → x.trace = b.trace := by
    intro x hx
    obtain ⟨b0, h1, h2⟩ := start_origin hv hx
    rw [hb] at h1; cases h1
    rw [h2.same]
  cases hs with
  | idle _ => cases hr; rw [ofStart hb'] at ht; exact (append_ne _ _ ht).elim
  | costErr _ _ => cases hr; cases he
  | @poor k0 b0 i o0 c ha _ _ =>
    cases hr
    rcases getElem?_set_cases hb' with ⟨rfl, rfl⟩ | ⟨-, h2⟩
    · have h2 : b0.trace = b.trace := ofStart ha.get
      have h3 : b0.exit.trace = b.trace := h2
      rw [h3] at ht; exact (append_ne _ _ ht).elim
    · rw [ofStart h2] at ht; exact (append_ne _ _ ht).elim
  | hang => cases hr
  | fail _ _ _ _ => cases hr; cases he
  | @done k0 b0 i o0 c m ha _ _ hx =>
    cases hr
    have hf := ha.finished hv hx
    cases finished_origin hv hf hb' with
    | other b1 _ h1 h2 =>
      rw [hb] at h1; cases h1
      rw [h2.trace] at ht; exact (append_ne _ _ ht).elim
    | self h1 h2 =>
      subst h1
      have h3 := ha.old
      rw [hb] at h3; cases h3
      rw [h2.trace, skipNops_trace, (exec_ok rfl hx).trace] at ht
      have h4 : b.trace ++ [o0] = b.trace ++ [o] := ht
      obtain rfl : o0 = o := by simpa using h4
      exact ⟨b, i, c, m, ha, hx, hf⟩
    | fork x h1 h2 h3 => have := (List.getElem?_eq_some_iff.1 hb).1; omega

/-- A step in which a branch does not execute anything. -/
theorem step_not_executed {v w : Vm} (hv : Inv v) (h : v.step = some w) (he : w.error = none) {k : Nat} {b : VmBranch}
    (hb : v.branches[k]? = some b) (hx : ∀ o, ¬ Executed v w k o) :
    ∃ b', w.branches[k]? = some b' ∧ b'.stack = b.stack ∧ b'.frames = b.frames ∧ b'.trace = b.trace := by
  obtain ⟨b', hb'⟩ := step_grows hv h hb
  refine ⟨b', hb', ?_⟩
  cases step_did hv h he hb' with
  | stayed b0 h1 h2 _ =>
    rw [hb] at h1; cases h1
    rw [h2]; exact ⟨rfl, rfl, rfl⟩
  | acted b0 i o c m ha _ _ h1 h2 _ =>
    have h3 := ha.old
    rw [hb] at h3; cases h3
    exact (hx o ⟨b, b', hb, hb', by rw [h2.trace, skipNops_trace, (exec_ok rfl h1).trace]; rfl⟩).elim
  | forked k' b0 i o c m ts t x h1 => have := (List.getElem?_eq_some_iff.1 hb).1; omega

theorem step_scratch {v w : Vm} (hv : Inv v) (h : v.step = some w) (he : w.error = none)
    (hx : ∀ j o, Executed v w j o → ¬ Saves o) : w.scratch = v.scratch := by
  have hs := step_spec hv
  rw [h] at hs
  generalize hr : some w = r at hs
  cases hs with
  | idle _ => cases hr; exact start_scratch hv
  | costErr _ _ => cases hr; cases he
  | poor _ _ _ => cases hr; exact start_scratch hv
  | hang => cases hr
  | fail _ _ _ _ => cases hr; cases he
  | @done k b i o c m ha hc hle hok =>
    cases hr
    have hf := ha.finished hv hok
    rw [hf.scratch]
    obtain ⟨b', hb'⟩ := step_grows hv h ha.old
    have hw : ¬ Saves o := by
      refine hx k o ⟨b, b', ha.old, hb', ?_⟩
      cases finished_origin hv hf hb' with
      | other b1 hne h1 h2 => exact (hne rfl).elim
      | self h1 h2 => rw [h2.trace, skipNops_trace, (exec_ok rfl hok).trace]; rfl
      | fork x h1 h2 h3 => have := (List.getElem?_eq_some_iff.1 ha.old).1; omega
    exact exec_scratch hok hw

theorem follows_session {fn : Functions} {l : List Op} {version : Nat} {v : Vm} {k : Nat} {r : Real} (h : Follows fn l version v k r) :
    Session l version v := by
  induction h with
  | new => exact .new
  | step _ _ h _ _ _ _ ih => exact .step ih h
  | fork _ _ h _ _ _ _ _ _ ih => exact .step ih h
  | other _ h _ _ _ ih => exact .step ih h
  | switch id _ ih => exact .switch id ih
  | breakpoints lns _ h ih => exact .breakpoints lns ih h

theorem switch_same (v : Vm) (id : Nat) : (v.switch id).branches = v.branches ∧ (v.switch id).scratch = v.scratch := by
  unfold Vm.switch
  split <;> exact ⟨rfl, rfl⟩

theorem follows_sound {fn : Functions} {l : List Op} {version : Nat} {v : Vm} {k : Nat} {r : Real} (h : Follows fn l version v k r) :
    ∃ b, v.branches[k]? = some b ∧ StackHolds fn b.stack r.stack ∧ ScratchHolds fn v.scratch r.scratch ∧
      FramesHold b.frames r.calls ∧ DoesAll fn b.trace Real.start r := by
  induction h with
  | new =>
    have key : ScratchHolds fn (List.replicate 256 ⟨.none, .none⟩) Real.start.scratch := by
      intro i x hx
      rw [(List.mem_replicate.1 (List.mem_of_getElem? hx)).2]
      exact ⟨rfl, trivial⟩
    obtain ⟨j, nm, -, ⟨-, h⟩ | ⟨-, h⟩⟩ := new_cases l version <;> rw [h] <;> exact ⟨_, rfl, .nil, key, trivial, .nil _⟩
  | @step v w k r r' b o h0 hb h he hx hd ho ih =>
    have hv := session_inv (follows_session h0)
    obtain ⟨b1, e1, h1, h2, h3, h4⟩ := ih
    rw [hb] at e1; cases e1
    obtain ⟨b2, i, c, m, ha, hok, hf⟩ := step_executed hv h he hx
    have e2 := ha.old
    rw [hb] at e2; cases e2
    have hs := exec_sound (m := v.mach b o c) hok ⟨h1, h2, h3⟩ hd ho
    obtain ⟨b0, b', e0, hb', ht⟩ := hx
    rw [hb] at e0; cases e0
    refine ⟨b', hb', ?_⟩
    rw [ht]
    cases finished_origin hv hf hb' with
    | other _ hne _ _ => exact (hne rfl).elim
    | fork _ hle _ _ => have := (List.getElem?_eq_some_iff.1 hb).1; omega
    | self _ hr =>
      refine ⟨?_, by rw [hf.scratch]; exact hs.2.1, by rw [acted_frames hr]; exact hs.2.2, h4.snoc ho⟩
      rw [hr.same]; dsimp only; rw [skipNops_same]; exact hs.1
  | @fork v w k k' r r' b o h0 hb h he hx hd ho hk hk' ih =>
    have hv := session_inv (follows_session h0)
    obtain ⟨b1, e1, h1, h2, h3, h4⟩ := ih
    rw [hb] at e1; cases e1
    obtain ⟨b2, i, c, m, ha, hok, hf⟩ := step_executed hv h he hx
    have e2 := ha.old
    rw [hb] at e2; cases e2
    have hs := exec_sound (m := v.mach b o c) hok ⟨h1, h2, h3⟩ hd ho
    have hb' := List.getElem?_eq_getElem hk'
    refine ⟨_, hb', ?_⟩
    generalize w.branches[k'] = b' at hb'
    cases finished_origin hv hf hb' with
    | other _ _ e3 _ => have := (List.getElem?_eq_some_iff.1 e3).1; omega
    | self e3 _ => have := (List.getElem?_eq_some_iff.1 hb).1; omega
    | fork x _ hfk hr =>
      obtain ⟨t, ts, -, -, hxe⟩ := (exec_ok rfl hok).forks _ _ hfk
      rw [hr.same, hxe]
      dsimp only
      rw [skipNops_same]
      exact ⟨hs.1, by rw [hf.scratch]; exact hs.2.1, trivial, h4.snoc ho⟩
  | @other v w k r h0 h he hx hw ih =>
    have hv := session_inv (follows_session h0)
    obtain ⟨b, e1, h1, h2, h3, h4⟩ := ih
    obtain ⟨b', e2, g1, g2, g3⟩ := step_not_executed hv h he e1 hx
    exact ⟨b', e2, by rw [g1]; exact h1, by rw [step_scratch hv h he hw]; exact h2, by rw [g2]; exact h3, by rw [g3]; exact h4⟩
  | @switch v k r id h0 ih =>
    obtain ⟨e1, e2⟩ := switch_same v id
    rw [e1, e2]; exact ih
  | @breakpoints v w k r lns h0 h ih =>
    unfold Vm.setBreakpoints at h
    cases hc : Vm.checkBreakpoints v.listing lns with
    | none => rw [hc] at h; cases h
    | some bps => rw [hc] at h; cases h; exact ih

end Teal
