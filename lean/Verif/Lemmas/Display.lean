import Verif.Lemmas.Real
import Verif.Lemmas.Literals
import Verif.Spec.Display

/-!
# The texts of values
-/

namespace Teal
open Teal.Spec

/-- Sources occur with their types only. -/
def ProperSrc : StackType → VmSrc → Prop
  | _, .none => True
  | t, .uint _ => t = .uint64
  | t, .bytes _ => t = .bytes
  | t, .sig _ => t = .bytes
  | t, .sha256 t' s => t = .bytes ∧ ProperSrc t' s
  | t, .ed25519verify .. => t = .uint64
  | t, .ecdsaVerify .. => t = .uint64
  | t, .val t' s => t = .any ∧ ProperSrc t' s

/-- Values on the stack. -/
def Proper (v : VmValue) : Prop := ProperSrc v.t v.src ∧ v.t ≠ .none

/-- Values in the scratch space. -/
def ProperSlot (v : VmValue) : Prop := Proper v ∨ v = ⟨.none, .none⟩

def AllProper (m : Mach) : Prop := (∀ v ∈ m.br.stack, Proper v) ∧ ∀ v ∈ m.scratch, ProperSlot v

/-- `x` makes only proper values, also when it fails. -/
def Makes {α : Type} (Q : α → Prop) (x : X α) : Prop := ∀ m, AllProper m →
  match x m with
  | .ok a m' => AllProper m' ∧ Q a
  | .panic _ m' => AllProper m'
  | .hang => True

def Any {α : Type} : α → Prop := fun _ => True

theorem Makes.ok {α : Type} {Q : α → Prop} {x : X α} (h : Makes Q x) {m m' : Mach} {a : α} (hm : AllProper m) (hx : x m = .ok a m') :
    AllProper m' ∧ Q a := by
  have := h m hm; rw [hx] at this; exact this

theorem Makes.panic {α : Type} {Q : α → Prop} {x : X α} (h : Makes Q x) {m m' : Mach} {e : VmErr} (hm : AllProper m)
    (hx : x m = .panic e m') : AllProper m' := by
  have := h m hm; rw [hx] at this; exact this

theorem Makes.bind {α β : Type} {Q : α → Prop} {R : β → Prop} {x : X α} {f : α → X β} (hx : Makes Q x) (hf : ∀ a, Q a → Makes R (f a)) :
    Makes R (x >>= f) := by
  intro m hm
  rw [X.bind_apply]
  have h := hx m hm
  cases hr : x m with
  | ok a m1 => rw [hr] at h; exact hf a h.2 m1 h.1
  | panic e m1 => rw [hr] at h; exact h
  | hang => trivial

theorem Makes.pure {α : Type} {Q : α → Prop} {a : α} (h : Q a) : Makes Q (pure a : X α) := fun _ hm => ⟨hm, h⟩
theorem Makes.modify {f : VmBranch → VmBranch} (h : ∀ b, (f b).stack = b.stack) : Makes Any (X.modifyBr f) := fun m hm =>
  ⟨⟨by intro v hv; dsimp only at hv; rw [h] at hv; exact hm.1 v hv, hm.2⟩, trivial⟩
theorem Makes.inc : Makes Any X.incLine := .modify fun _ => rfl
theorem Makes.push {v : VmValue} (h : Proper v) : Makes Any (X.push v) := fun m hm =>
  ⟨⟨fun w hw => (List.mem_cons.1 hw).elim (fun e => e ▸ h) (hm.1 w), hm.2⟩, trivial⟩
theorem Makes.pop (t : StackType) : Makes Proper (X.pop t) := by
  intro m hm
  unfold X.pop
  cases hs : m.br.stack with
  | nil => exact hm
  | cons v s =>
    dsimp only
    by_cases h : t = .any ∨ v.t = .any ∨ v.t = t
    · rw [if_pos h]
      exact ⟨⟨fun w hw => hm.1 w (by rw [hs]; exact List.mem_cons_of_mem _ hw), hm.2⟩, hm.1 v (by rw [hs]; exact List.mem_cons_self)⟩
    · rw [if_neg h]; exact hm
theorem Makes.popN : (n : Nat) → Makes (fun vs => ∀ v ∈ vs, Proper v) (X.popN n)
  | 0 => .pure (by simp)
  | n + 1 => (Makes.pop _).bind fun v h => (Makes.popN n).bind fun vs hs => .pure (by
      intro w hw; exact (List.mem_cons.1 hw).elim (fun e => e ▸ h) (hs w))
theorem Makes.pops : (ts : List StackType) → Makes Any (X.pops ts)
  | [] => .pure trivial
  | t :: ts => (Makes.pop t).bind fun _ _ => Makes.pops ts
theorem Makes.pushAll : {vs : List VmValue} → (hv : ∀ v ∈ vs, Proper v) → Makes Any (X.pushAll vs)
  | [], _ => .pure trivial
  | _ :: _, hv => (Makes.push (hv _ List.mem_cons_self)).bind fun _ _ => Makes.pushAll fun w hw => hv w (List.mem_cons_of_mem _ hw)
theorem Makes.pushes : {ts : List StackType} → (ht : .none ∉ ts) → Makes Any (X.pushes ts)
  | [], _ => .pure trivial
  | _ :: _, ht => (Makes.push (by exact ⟨trivial, fun h => ht (h ▸ List.mem_cons_self)⟩)).bind fun _ _ =>
      Makes.pushes fun hw => ht (List.mem_cons_of_mem _ hw)
theorem Makes.simple {ins outs : List StackType} (ht : .none ∉ outs) : Makes Any (X.simple ins outs) :=
  (Makes.pops _).bind fun _ _ => (Makes.pushes ht).bind fun _ _ => .inc
theorem specs_types (g : FieldGroup) (hg : g ∈ [FieldGroup.txn, .global, .assetHolding, .assetParams, .appParams, .acctParams, .block]) :
    ∀ s ∈ g.specs, s.ftype ≠ .none := by
  simp only [List.mem_cons, List.not_mem_nil, or_false] at hg
  rcases hg with rfl | rfl | rfl | rfl | rfl | rfl | rfl <;> decide +kernel
theorem Makes.fieldType {g : FieldGroup} {f : Nat} (hg : g ∈ [FieldGroup.txn, .global, .assetHolding, .assetParams, .appParams, .acctParams, .block]) :
    Makes (fun t => t ≠ .none) (X.fieldType g f) := by
  intro m hm
  unfold X.fieldType
  cases hs : g.specs[f]? with
  | none => exact hm
  | some s => exact ⟨hm, specs_types g hg s (List.mem_of_getElem? hs)⟩
theorem Makes.scratchAt (n : Nat) : Makes ProperSlot (X.scratchAt n) := by
  intro m hm
  unfold X.scratchAt
  cases hs : m.scratch[n]? with
  | none => exact hm
  | some s => exact ⟨hm, hm.2 _ (List.mem_of_getElem? hs)⟩
theorem Makes.itemAt (n : Nat) : Makes Proper (X.itemAt n) := by
  intro m hm
  unfold X.itemAt
  cases hs : m.br.stack.reverse[n]? with
  | none => exact hm
  | some s => exact ⟨hm, hm.1 _ (List.mem_reverse.1 (List.mem_of_getElem? hs))⟩
theorem Makes.replace {n : Nat} {v : VmValue} (hv : Proper v) : Makes Any (X.replace n v) := by
  intro m hm
  unfold X.replace
  by_cases h : n < m.br.stack.length
  · rw [if_pos h]
    refine ⟨⟨fun w hw => ?_, hm.2⟩, trivial⟩
    rcases List.mem_or_eq_of_mem_set (List.mem_reverse.1 hw) with h | rfl
    · exact hm.1 w (List.mem_reverse.1 h)
    · exact hv
  · rw [if_neg h]; exact hm
theorem Makes.store {i v : VmValue} (hv : Proper v) : Makes Any (X.store i v) := by
  intro m hm
  unfold X.store
  cases i.src with
  | uint n =>
    dsimp only
    by_cases h : n < m.scratch.length
    · rw [if_pos h]
      refine ⟨⟨hm.1, fun w hw => ?_⟩, trivial⟩
      rcases List.mem_or_eq_of_mem_set hw with h | rfl
      · exact hm.2 w h
      · exact .inl hv
    · rw [if_neg h]; exact hm
  | _ => exact ⟨hm, trivial⟩
theorem Makes.prepare (a r : Nat) : Makes Any (X.prepare a r) := by
  intro m hm
  unfold X.prepare
  cases m.br.frames with
  | nil => exact hm
  | cons f fs => exact ⟨hm, trivial⟩
theorem Makes.topFrame : Makes Any X.topFrame := by
  intro m hm
  unfold X.topFrame
  cases m.br.frames with
  | nil => exact hm
  | cons f fs => exact ⟨hm, trivial⟩
theorem Makes.forkAll (l : List Op) (bps : List Nat) (ts : List Bytes) : Makes Any (X.forkAll l bps ts) := by
  intro m hm; rw [forkAll_apply]; exact ⟨hm, trivial⟩
theorem Makes.retsub : Makes Any X.retsub := by
  intro m hm
  unfold X.retsub
  cases m.br.frames with
  | nil => exact ⟨hm, trivial⟩
  | cons f fs =>
    refine Makes.bind (R := Any) (Makes.popN _) (fun _ h => ?_) _ hm
    refine Makes.bind (Makes.popN _) fun _ _ => ?_
    refine Makes.bind (Makes.pushAll fun v hv => h v (List.mem_reverse.1 hv)) fun _ _ => ?_
    exact Makes.modify fun _ => rfl

theorem val_proper {v : VmValue} (h : ProperSlot v) : Proper ⟨.any, .val v.t v.src⟩ := by
  refine ⟨⟨rfl, ?_⟩, by simp⟩
  rcases h with h | rfl
  · exact h.1
  · trivial

/-- Every instruction makes only proper values. -/
theorem exec_makes (v : Vm) (o : Op) : Makes Any (v.executeOp o) := by
  unfold Vm.executeOp
  have field : ∀ {g : FieldGroup} {f : Nat} {ins : List StackType} {rest : List StackType},
      g ∈ [FieldGroup.txn, .global, .assetHolding, .assetParams, .appParams, .acctParams, .block] → .none ∉ rest →
      Makes Any (X.pops ins >>= fun _ => X.fieldType g f >>= fun t => X.pushes (t :: rest) >>= fun _ => X.incLine) := fun hg hr =>
    (Makes.pops _).bind fun _ _ => (Makes.fieldType hg).bind fun _ ht => (Makes.pushes (fun h => (List.mem_cons.1 h).elim (fun e => ht e.symm) hr)).bind fun _ _ => .inc
  have field2 : ∀ {g : FieldGroup} {f : Nat},
      g ∈ [FieldGroup.txn, .global, .assetHolding, .assetParams, .appParams, .acctParams, .block] →
      Makes Any (X.fieldType g f >>= fun t => X.pushes [t] >>= fun _ => X.incLine) := fun hg =>
    (Makes.fieldType hg).bind fun _ ht => (Makes.pushes (fun h => (List.mem_cons.1 h).elim (fun e => ht e.symm) (by simp))).bind fun _ _ => .inc
  have field3 : ∀ {g : FieldGroup} {f : Nat} {ins : List StackType},
      g ∈ [FieldGroup.txn, .global, .assetHolding, .assetParams, .appParams, .acctParams, .block] →
      Makes Any (X.fieldType g f >>= fun t => X.pops ins >>= fun _ => X.pushes [t] >>= fun _ => X.incLine) := fun hg =>
    (Makes.fieldType hg).bind fun _ ht => (Makes.pops _).bind fun _ _ => (Makes.pushes (fun h => (List.mem_cons.1 h).elim (fun e => ht e.symm) (by simp))).bind fun _ _ => .inc
  cases o with
  | plain k =>
    cases k
    case stores => exact (Makes.pop _).bind fun _ h => (Makes.pop _).bind fun _ _ => (Makes.store h).bind fun _ _ => .inc
    case retsub => exact .retsub
    case sha256 => exact (Makes.pop _).bind fun _ h => (Makes.push (by exact ⟨⟨rfl, h.1⟩, by simp⟩)).bind fun _ _ => .inc
    case ed25519verify =>
      exact (Makes.pop _).bind fun _ _ => (Makes.pop _).bind fun _ _ => (Makes.pop _).bind fun _ _ =>
        (Makes.push ⟨by rfl, by simp⟩).bind fun _ _ => .inc
    case dup => exact (Makes.pop _).bind fun _ h => (Makes.pushAll (by intro v hv; simp at hv; rw [hv]; exact h)).bind fun _ _ => .inc
    case dup2 =>
      exact (Makes.pop _).bind fun _ h => (Makes.pop _).bind fun _ h' => (Makes.pushAll (by
        intro v hv
        simp only [List.mem_cons, List.not_mem_nil, or_false] at hv
        rcases hv with rfl | rfl | rfl | rfl <;> assumption)).bind fun _ _ => .inc
    case swap =>
      exact (Makes.pop _).bind fun _ h => (Makes.pop _).bind fun _ h' => (Makes.pushAll (by
        intro v hv
        simp only [List.mem_cons, List.not_mem_nil, or_false] at hv
        rcases hv with rfl | rfl <;> assumption)).bind fun _ _ => .inc
    case returnOp => exact (Makes.pops _).bind fun _ _ => .modify fun _ => rfl
    case err => exact .modify fun _ => rfl
    all_goals first | exact Makes.simple (by decide) | exact Makes.inc
  | u8 k n =>
    cases k
    case store => exact (Makes.pop _).bind fun _ h => (Makes.store h).bind fun _ _ => .inc
    case load => exact (Makes.scratchAt _).bind fun _ h => (Makes.push (val_proper h)).bind fun _ _ => .inc
    case bury => exact (Makes.pop _).bind fun _ h => (Makes.replace h).bind fun _ _ => .inc
    case popn => exact (Makes.popN _).bind fun _ _ => .inc
    case dupn =>
      show Makes Any (U8Op.execute n .dupn)
      unfold U8Op.execute
      dsimp only
      refine (Makes.pop _).bind fun a h => ?_
      split
      · intro m hm; trivial
      · exact (Makes.pushAll (by intro v hv; rw [(List.mem_replicate.1 hv).2]; exact h)).bind fun _ _ => .inc
    case dig =>
      intro m hm
      exact ((Makes.itemAt _).bind fun _ h => (Makes.push h).bind fun _ _ => .inc) _ hm
    case cover =>
      exact (Makes.pop _).bind fun _ h => (Makes.popN _).bind fun _ hs => (Makes.push h).bind fun _ _ =>
        (Makes.pushAll fun v hv => hs v (List.mem_reverse.1 hv)).bind fun _ _ => .inc
    case uncover =>
      exact (Makes.popN _).bind fun _ hs => (Makes.pop _).bind fun _ h =>
        (Makes.pushAll fun v hv => hs v (List.mem_reverse.1 hv)).bind fun _ _ => (Makes.push h).bind fun _ _ => .inc
    all_goals exact Makes.simple (by decide)
  | u8u8 k a b =>
    cases k
    case proto => exact (Makes.prepare _ _).bind fun _ _ => .inc
    all_goals exact Makes.simple (by decide)
  | i8 k i =>
    cases k
    · exact Makes.topFrame.bind fun _ _ => (Makes.itemAt _).bind fun _ h => (Makes.push h).bind fun _ _ => .inc
    · exact Makes.topFrame.bind fun _ _ => (Makes.pop _).bind fun _ h => (Makes.replace h).bind fun _ _ => .inc
  | field k f =>
    cases k
    case ecdsaVerify =>
      exact (Makes.pop _).bind fun _ _ => (Makes.pop _).bind fun _ _ => (Makes.pop _).bind fun _ _ => (Makes.pop _).bind fun _ _ =>
        (Makes.pop _).bind fun _ _ => (Makes.push ⟨by rfl, by simp⟩).bind fun _ _ => .inc
    all_goals first
      | exact Makes.simple (by decide)
      | exact field2 (by decide)
      | exact field3 (by decide)
      | exact field (rest := []) (by decide) (by decide)
      | exact field (rest := [.uint64]) (by decide) (by decide)
  | fieldIdx k f i =>
    cases k
    all_goals first
      | exact field2 (by decide)
      | exact field3 (by decide)
      | exact Makes.inc
  | groupField k t f =>
    cases k
    all_goals first
      | exact field2 (by decide)
      | exact field (rest := []) (by decide) (by decide)
  | groupFieldIdx k t f i =>
    cases k
    all_goals exact field2 (by decide)
  | pushints vs => exact (Makes.pushes (by simp)).bind fun _ _ => .inc
  | pushbytess vs =>
    exact (Makes.pushAll (by intro v hv; obtain ⟨b, -, rfl⟩ := List.mem_map.1 hv; exact ⟨by rfl, by simp⟩)).bind fun _ _ => .inc
  | pushint n => exact Makes.simple (by decide)
  | int n => exact (Makes.push ⟨by rfl, by simp⟩).bind fun _ _ => .inc
  | byte n => exact (Makes.push ⟨by rfl, by simp⟩).bind fun _ _ => .inc
  | pushbytes n => exact (Makes.push ⟨by rfl, by simp⟩).bind fun _ _ => .inc
  | method n => exact (Makes.push ⟨by rfl, by simp⟩).bind fun _ _ => .inc
  | branch k t =>
    cases k
    case b => exact Makes.modify (f := fun b => { b with line := findLabel v.listing t }) fun _ => rfl
    case callsub => intro m hm; exact ⟨hm, trivial⟩
    all_goals
      show Makes Any (X.pops [.uint64] >>= fun _ => X.fork v.listing v.breakpoints t >>= fun _ => X.incLine)
      rw [fork_one]
      exact (Makes.pops _).bind fun _ _ => (Makes.forkAll _ _ _).bind fun _ _ => .inc
  | switch ts => exact (Makes.pops _).bind fun _ _ => (Makes.forkAll _ _ _).bind fun _ _ => .inc
  | match_ ts => exact (Makes.popN _).bind fun _ _ => (Makes.pops _).bind fun _ _ => (Makes.forkAll _ _ _).bind fun _ _ => .inc
  | _ => exact Makes.inc

/-! ### Sessions -/

/-- All values in the machine are proper. -/
def VmProper (v : Vm) : Prop :=
  (∀ (j : Nat) (b : VmBranch), v.branches[j]? = some b → ∀ x ∈ b.stack, Proper x) ∧ ∀ x ∈ v.scratch, ProperSlot x

theorem step_proper {v w : Vm} (hv : Inv v) (h : v.step = some w) (hp : VmProper v) : VmProper w := by
  have start : ∀ (j : Nat) (b : VmBranch), v.start.branches[j]? = some b → ∀ x ∈ b.stack, Proper x := by
    intro j b hb
    obtain ⟨b0, h1, h2⟩ := start_origin hv hb
    rw [h2.same]; exact hp.1 j b0 h1
  have scr : ∀ x ∈ v.start.scratch, ProperSlot x := by rw [start_scratch hv]; exact hp.2
  have hs := step_spec hv
  rw [h] at hs
  generalize hr : some w = r at hs
  cases hs with
  | idle _ => cases hr; exact ⟨start, scr⟩
  | costErr _ _ => cases hr; exact ⟨start, scr⟩
  | @poor k b i o c ha _ _ =>
    cases hr
    refine ⟨fun j b' hb' => ?_, scr⟩
    rcases getElem?_set_cases hb' with ⟨rfl, rfl⟩ | ⟨-, hg⟩
    · exact hp.1 j b ha.old
    · exact start j b' hg
  | hang => cases hr
  | @fail k b i o c e m ha _ _ hx =>
    cases hr
    have hm := (exec_makes v o).panic (m := v.mach b o c) ⟨hp.1 k b ha.old, hp.2⟩ hx
    obtain ⟨s, sc, hl, e1⟩ := exec_panic hx
    subst e1
    refine ⟨fun j b' hb' => ?_, hm.2⟩
    simp only [Vm.writeBack, Vm.mach, List.append_nil] at hb'
    rcases getElem?_set_cases hb' with ⟨rfl, rfl⟩ | ⟨-, hg⟩
    · exact hm.1
    · exact start j b' hg
  | @done k b i o c m ha hc hle hok =>
    cases hr
    have hm := ((exec_makes v o).ok (m := v.mach b o c) ⟨hp.1 k b ha.old, hp.2⟩ hok).1
    have hf := ha.finished hv hok
    refine ⟨fun j b' hb' => ?_, by rw [hf.scratch]; exact hm.2⟩
    cases finished_origin hv hf hb' with
    | other b0 _ h1 h2 => rw [h2.same]; exact hp.1 j b0 h1
    | self _ h2 => rw [h2.same]; dsimp only; rw [skipNops_same]; exact hm.1
    | fork x _ h1 h2 =>
      obtain ⟨t, ts, -, -, hxe⟩ := (exec_ok rfl hok).forks _ _ h1
      rw [h2.same, hxe]; dsimp only; rw [skipNops_same]; exact hm.1

theorem session_proper {l : List Op} {version : Nat} {v : Vm} (h : Session l version v) : VmProper v := by
  refine (session_induct (P := VmProper) ?_ (fun v w hv hp h => step_proper hv h hp) ?_ ?_ h).2
  · have key : ∀ x ∈ List.replicate 256 (⟨.none, .none⟩ : VmValue), ProperSlot x := fun x hx => .inr (List.mem_replicate.1 hx).2
    obtain ⟨j, nm, -, ⟨-, h⟩ | ⟨-, h⟩⟩ := new_cases l version <;> rw [h] <;>
      exact ⟨fun j b hb x hx => by
        have := List.mem_of_getElem? hb
        rw [List.mem_singleton.1 this] at hx; exact absurd hx (by simp), key⟩
  · intro v id _ ih
    obtain ⟨e1, e2⟩ := switch_same v id
    unfold VmProper
    rw [e1, e2]; exact ih
  · intro v w lns _ ih h
    unfold Vm.setBreakpoints at h
    cases hc : Vm.checkBreakpoints v.listing lns with
    | none => rw [hc] at h; cases h
    | some bps => rw [hc] at h; cases h; exact ih

/-! ### Reading the texts -/

theorem text_none (t : StackType) : valueText t VmSrc.none.text = t.vmName := rfl

theorem value_none {t t' : StackType} {o : Option Bytes} (h : valueText t o = t'.vmName) : t = t' ∧ o = none := by
  cases o <;> cases t <;> cases t' <;> simp [valueText, StackType.vmName] at h ⊢

theorem value_some {t t' : StackType} {o : Option Bytes} {u : Bytes} (h : valueText t o = t'.vmName ++ (b!": " ++ u)) :
    t = t' ∧ o = some u := by
  cases o <;> cases t <;> cases t' <;> simp [valueText, StackType.vmName] at h ⊢ <;> exact h

theorem text_none' {s : VmSrc} (h : s.text = none) : s = .none := by
  cases s <;> first | rfl | cases h

theorem decimal_eq {n m : Nat} {t : Bytes} (h : DecimalOf n t) (h' : DecimalOf m t) : n = m := by
  obtain ⟨ds, h1, h2, -⟩ := h
  obtain ⟨ds', h1', h2', -⟩ := h'
  rw [← h2, ← h2', plainDigits_unique h1 h1']

theorem decimal_head {n : Nat} {s : Bytes} (h : DecimalOf n (101 :: s)) : False := by
  obtain ⟨ds, h1, -⟩ := h
  have := h1.1
  cases ds with
  | nil => cases this
  | cons d ds =>
    have h2 := h1.2 d (by simp)
    simp [digitValue] at this
    omega

theorem bytesStr_eq (b : Bytes) : bytesStr b = b!"b64 " ++ base64 b := by
  unfold bytesStr; rw [b64Encode_eq]

theorem base64_inj {a b : Bytes} (h : base64 a = base64 b) : a = b := by
  rw [← b64Encode_eq, ← b64Encode_eq] at h
  have := b64Loop_encode a
  rw [h, b64Loop_encode] at this
  exact (Option.some.inj this).symm

/-- What the text of a value says is true of the values of which the value is true. -/
theorem claims_true {fn : Functions} {text : Bytes} {P : Val → Prop} (hc : Claims fn text P) : ∀ {t : StackType} {s : VmSrc} {x : Val},
    ProperSrc t s → valueText t s.text = text → TypeHolds t x → SourceHolds fn s x → P x := by
  induction hc with
  | uint64 =>
    intro t s x hp ht h1 h2
    obtain ⟨rfl, -⟩ := value_none (t' := .uint64) ht
    exact h1
  | bytes =>
    intro t s x hp ht h1 h2
    obtain ⟨rfl, -⟩ := value_none (t' := .bytes) ht
    exact h1
  | none =>
    intro t s x hp ht h1 h2
    obtain ⟨rfl, -⟩ := value_none (t' := .none) ht
    exact h1
  | uint hd =>
    intro t s x hp ht h1 h2
    obtain ⟨rfl, hs⟩ := value_some (t' := .uint64) ht
    cases s with
    | uint n =>
      cases hs
      rw [decimal_eq hd (formatUint_decimal n)]
      exact h2
    | ed25519verify => cases hs; exact (decimal_head hd).elim
    | ecdsaVerify => cases hs; exact (decimal_head hd).elim
    | none => cases hs
    | val => exact absurd hp.1 (by simp)
    | sha256 => exact absurd hp.1 (by simp)
    | bytes => exact absurd hp (by simp [ProperSrc])
    | sig => exact absurd hp (by simp [ProperSrc])
  | bytesConst b =>
    intro t s x hp ht h1 h2
    obtain ⟨rfl, hs⟩ := value_some (t' := .bytes) (u := b!"b64 " ++ base64 b) ht
    cases s with
    | uint n => exact absurd hp (by simp [ProperSrc])
    | ed25519verify => exact absurd hp (by simp [ProperSrc])
    | ecdsaVerify => exact absurd hp (by simp [ProperSrc])
    | none => cases hs
    | val => exact absurd hp.1 (by simp)
    | sha256 => cases hs
    | bytes b' =>
      have h : bytesStr b' = b!"b64 " ++ base64 b := Option.some.inj hs
      rw [bytesStr_eq, List.append_cancel_left_eq] at h
      rw [← base64_inj h]
      exact .inl h2
    | sig s => cases hs; exact .inr h2
  | @sha256 u Q hc ih =>
    intro t s x hp ht h1 h2
    obtain ⟨rfl, hs⟩ := value_some (t' := .bytes) (u := b!"sha256(" ++ u ++ b!")") (ht.trans (by simp [StackType.vmName]))
    cases s with
    | uint n => exact absurd hp (by simp [ProperSrc])
    | ed25519verify => exact absurd hp (by simp [ProperSrc])
    | ecdsaVerify => exact absurd hp (by simp [ProperSrc])
    | none => cases hs
    | val => exact absurd hp.1 (by simp)
    | sha256 t' s =>
      have h : callText b!"sha256" [valueText t' s.text] = b!"sha256(" ++ u ++ b!")" := Option.some.inj hs
      simp [callText] at h
      obtain ⟨a, h3, h4, h5⟩ := h2
      exact .inl ⟨a, ih hp.2 h h3 h4, h5⟩
    | bytes b' =>
      have h : bytesStr b' = b!"sha256(" ++ u ++ b!")" := Option.some.inj hs
      rw [bytesStr_eq] at h
      simp at h
    | sig s => cases hs; exact .inr h2
  | @loaded u Q hc ih =>
    intro t s x hp ht h1 h2
    obtain ⟨rfl, hs⟩ := value_some (t' := .any) (u := u) ht
    cases s with
    | val t' s => exact ih hp.2 (Option.some.inj hs) h2.1 h2.2
    | none => cases hs
    | sha256 => exact absurd hp.1 (by simp)
    | _ => exact absurd hp (by simp [ProperSrc])

/-! ### Decimal spellings -/

theorem numeral_concat (ds : List Nat) (d : Nat) : numeral 10 (ds ++ [d]) = numeral 10 ds * 10 + d := by
  simp [numeral]

theorem numeral_pos : ∀ (n : Nat) (ds : List Nat), ds.length = n → ds ≠ [] → ds.head? ≠ some 0 → 0 < numeral 10 ds
  | 0, ds, hl, hn, _ => (hn (List.length_eq_zero_iff.1 hl)).elim
  | n + 1, ds, hl, hn, h => by
    rcases List.eq_nil_or_concat ds with rfl | ⟨as, a, rfl⟩
    · exact (hn rfl).elim
    · rw [List.concat_eq_append] at hl h ⊢
      rw [numeral_concat]
      cases as with
      | nil => simp at h; simp [numeral]; omega
      | cons x xs =>
        have := numeral_pos n (x :: xs) (by simpa using hl) (by simp) (by simpa using h)
        omega

theorem numeral_unique : ∀ (n : Nat) (as bs : List Nat), as.length = n → as.head? ≠ some 0 → bs.head? ≠ some 0 →
    (∀ a ∈ as, a < 10) → (∀ b ∈ bs, b < 10) → numeral 10 as = numeral 10 bs → as = bs
  | 0, as, bs, hl, _, h2, _, _, he => by
    obtain rfl := List.length_eq_zero_iff.1 hl
    by_cases hb : bs = []
    · exact hb.symm
    · have := numeral_pos _ bs rfl hb h2
      have h0 : numeral 10 [] = 0 := rfl
      omega
  | n + 1, as, bs, hl, h1, h2, ha, hb, he => by
    rcases List.eq_nil_or_concat as with rfl | ⟨as, a, rfl⟩
    · cases hl
    rw [List.concat_eq_append] at hl h1 ha he ⊢
    rcases List.eq_nil_or_concat bs with rfl | ⟨bs, b, rfl⟩
    · have := numeral_pos _ (as ++ [a]) rfl (by simp) h1
      have h0 : numeral 10 [] = 0 := rfl
      omega
    rw [List.concat_eq_append] at h2 hb he ⊢
    rw [numeral_concat, numeral_concat] at he
    have a1 := ha a (by simp)
    have b1 := hb b (by simp)
    have e1 : a = b := by omega
    have e2 : as = bs := by
      refine numeral_unique n as bs (by simpa using hl) ?_ ?_ (fun x hx => ha x (by simp [hx])) (fun x hx => hb x (by simp [hx])) (by omega)
      · intro h; exact h1 (by rw [List.head?_append, h]; rfl)
      · intro h; exact h2 (by rw [List.head?_append, h]; rfl)
    rw [e1, e2]

theorem digit_char {c : UInt8} {d : Nat} (h : digitValue c = some d) (hd : d < 10) : c.toNat = 48 + d := by
  unfold digitValue at h
  split at h
  · rename_i hc
    cases h
    have : 48 ≤ c.toNat := hc.1
    omega
  · split at h
    · rename_i hc
      cases h
      have : 97 ≤ c.toNat := hc.1
      omega
    · split at h
      · rename_i hc
        cases h
        have : 65 ≤ c.toNat := hc.1
        omega
      · cases h

theorem digits_spelling : ∀ {s t : Bytes} {ds : List Nat}, PlainDigits 10 s ds → PlainDigits 10 t ds → s = t
  | [], [], _, _, _ => rfl
  | [], _ :: _, [], _, h => by cases h.1
  | _ :: _, [], [], h, _ => by cases h.1
  | [], _, _ :: _, h, _ => by cases h.1
  | _, [], _ :: _, _, h => by cases h.1
  | _ :: _, _ :: _, [], h, _ => by cases h.1
  | x :: s, y :: t, d :: ds, h, h' => by
    have e1 : digitValue x = some d ∧ s.map digitValue = ds.map some := by simpa using h.1
    have e2 : digitValue y = some d ∧ t.map digitValue = ds.map some := by simpa using h'.1
    have hd := h.2 d (by simp)
    have := digits_spelling (s := s) (t := t) (ds := ds) ⟨e1.2, fun x hx => h.2 x (by simp [hx])⟩ ⟨e2.2, fun x hx => h.2 x (by simp [hx])⟩
    rw [this, UInt8.toNat_inj.1 ((digit_char e1.1 hd).trans (digit_char e2.1 hd).symm)]

/-- A number has one decimal spelling. -/
theorem decimal_spelling {n : Nat} {s t : Bytes} (h : DecimalOf n s) (h' : DecimalOf n t) : s = t := by
  obtain ⟨ds, h1, h2, h3, h4⟩ := h
  obtain ⟨ds', h1', h2', h3', h4'⟩ := h'
  have head : ∀ {s : Bytes} {ds : List Nat}, PlainDigits 10 s ds → ds.head? = some 0 → s.head? = some 48 := by
    intro s ds hp h0
    cases ds with
    | nil => cases h0
    | cons d ds =>
      cases h0
      cases s with
      | nil => cases hp.1
      | cons c s =>
        have e1 : digitValue c = some 0 ∧ s.map digitValue = ds.map some := by simpa using hp.1
        have := digit_char e1.1 (by omega)
        rw [List.head?_cons, UInt8.toNat_inj.1 (this.trans (by rfl : 48 + 0 = (48 : UInt8).toNat))]
  have ne : ∀ {s : Bytes} {ds : List Nat}, PlainDigits 10 s ds → s ≠ [] → ds ≠ [] := by
    rintro s ds hp hs rfl
    cases s with
    | nil => exact hs rfl
    | cons => cases hp.1
  by_cases a : ds.head? = some 0
  · obtain ⟨rfl, e⟩ := h4 (head h1 a)
    by_cases a' : ds'.head? = some 0
    · rw [e, (h4' (head h1' a')).2]
    · have := numeral_pos _ ds' rfl (ne h1' h3') a'
      omega
  · by_cases a' : ds'.head? = some 0
    · obtain ⟨rfl, -⟩ := h4' (head h1' a')
      have := numeral_pos _ ds rfl (ne h1 h3) a
      omega
    · have := numeral_unique _ ds ds' rfl a a' h1.2 h1'.2 (h2.trans h2'.symm)
      subst this
      exact digits_spelling h1 h1'
end Teal
