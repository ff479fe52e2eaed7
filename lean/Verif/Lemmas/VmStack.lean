import Verif.Lemmas.VmExec
import Verif.Spec.Stack

/-!
# Pops and pushes
-/

namespace Teal
open Teal.Spec

/-- `StackFits`, with the operands in the order in which they are popped. -/
def FitsTop : List StackType → List VmValue → Prop
  | [], _ => True
  | _ :: _, [] => False
  | t :: ts, v :: s => Suits t v ∧ FitsTop ts s

theorem fitsTop_iff : ∀ (ts : List StackType) (s : List VmValue), FitsTop ts s ↔
    (ts.length ≤ s.length ∧ ∀ (i : Nat) (t : StackType) (v : VmValue), ts[i]? = some t → s[i]? = some v → Suits t v) := by
  intro ts
  induction ts with
  | nil => intro s; simp [FitsTop]
  | cons t ts ih =>
    intro s
    cases s with
    | nil => simp [FitsTop]
    | cons v s =>
      simp only [FitsTop, ih, List.length_cons, Nat.add_le_add_iff_right]
      constructor
      · rintro ⟨h1, h2, h3⟩
        refine ⟨h2, fun i t' v' ht hv => ?_⟩
        cases i with
        | zero => simp at ht hv; subst ht; subst hv; exact h1
        | succ i => simp at ht hv; exact h3 i t' v' ht hv
      · rintro ⟨h1, h2⟩
        exact ⟨h2 0 t v rfl rfl, h1, fun i t' v' ht hv => h2 (i + 1) t' v' (by simpa using ht) (by simpa using hv)⟩

theorem fits_iff (ts : List StackType) (s : List VmValue) : StackFits ts s ↔ FitsTop ts.reverse s := by
  rw [fitsTop_iff, List.length_reverse]; rfl

theorem fitsTop_append : ∀ (as bs : List StackType) (s : List VmValue),
    FitsTop (as ++ bs) s ↔ FitsTop as s ∧ FitsTop bs (s.drop as.length) := by
  intro as
  induction as with
  | nil => intro bs s; simp [FitsTop]
  | cons a as ih =>
    intro bs s
    cases s with
    | nil => simp [FitsTop]
    | cons v s => simp [FitsTop, ih, and_assoc]

theorem fitsTop_any : ∀ (n : Nat) (s : List VmValue), FitsTop (List.replicate n .any) s ↔ n ≤ s.length := by
  intro n
  induction n with
  | zero => intro s; simp [FitsTop]
  | succ n ih =>
    intro s
    cases s with
    | nil => simp [FitsTop, List.replicate_succ]
    | cons v s => simp [FitsTop, List.replicate_succ, ih, Suits]

/-- The machine with another stack. -/
def Mach.onStack (m : Mach) (s : List VmValue) : Mach := { m with br := { m.br with stack := s } }

@[simp] theorem Mach.onStack_stack (m : Mach) (s : List VmValue) : (m.onStack s).br.stack = s := rfl
@[simp] theorem Mach.onStack_onStack (m : Mach) (s s' : List VmValue) : (m.onStack s).onStack s' = m.onStack s' := rfl
@[simp] theorem Mach.onStack_scratch (m : Mach) (s : List VmValue) : (m.onStack s).scratch = m.scratch := rfl
theorem Mach.onStack_self (m : Mach) : m.onStack m.br.stack = m := rfl

theorem pop_ok {t : StackType} {m : Mach} {v : VmValue} {s : List VmValue} (h : m.br.stack = v :: s)
    (hv : Suits t v) : X.pop t m = .ok v (m.onStack s) := by
  unfold X.pop
  rw [h]
  dsimp only
  rw [if_pos (show t = .any ∨ v.t = .any ∨ v.t = t from hv)]; rfl

theorem pop_panic {t : StackType} {m : Mach} (h : ¬ FitsTop [t] m.br.stack) :
    ∃ e m', X.pop t m = .panic e m' := by
  unfold X.pop
  cases hs : m.br.stack with
  | nil => exact ⟨_, _, rfl⟩
  | cons v s =>
    rw [hs] at h
    dsimp only
    have h' : ¬ Suits t v := fun hv => h ⟨hv, trivial⟩
    rw [if_neg (show ¬ (t = .any ∨ v.t = .any ∨ v.t = t) from h')]
    exact ⟨_, _, rfl⟩

theorem bind_panic {α β : Type} {x : X α} {f : α → X β} {m : Mach} (h : ∃ e m', x m = .panic e m') :
    ∃ e m', (x >>= f) m = .panic e m' := by
  obtain ⟨e, m', h⟩ := h
  exact ⟨e, m', by rw [X.bind_apply, h]⟩

theorem bind_panic_of {α β : Type} {x : X α} {f : α → X β} {m m1 : Mach} {a : α} (h1 : x m = .ok a m1)
    (h : ∃ e m', f a m1 = .panic e m') : ∃ e m', (x >>= f) m = .panic e m' := by
  obtain ⟨e, m', h⟩ := h
  exact ⟨e, m', by rw [X.ok_bind h1, h]⟩

theorem popN_ok : ∀ (n : Nat) (m : Mach), n ≤ m.br.stack.length →
    X.popN n m = .ok (m.br.stack.take n) (m.onStack (m.br.stack.drop n)) := by
  intro n
  induction n with
  | zero => intro m _; rfl
  | succ n ih =>
    intro m h
    cases hs : m.br.stack with
    | nil => rw [hs] at h; simp at h
    | cons v s =>
      unfold X.popN
      rw [X.ok_bind (pop_ok hs (.inl rfl)), X.ok_bind (ih (m.onStack s) (by rw [hs] at h; simpa using h))]
      rfl

theorem popN_panic : ∀ (n : Nat) (m : Mach), m.br.stack.length < n → ∃ e m', X.popN n m = .panic e m' := by
  intro n
  induction n with
  | zero => intro m h; omega
  | succ n ih =>
    intro m h
    unfold X.popN
    cases hs : m.br.stack with
    | nil => exact bind_panic (pop_panic (by rw [hs]; simp [FitsTop]))
    | cons v s =>
      refine bind_panic_of (pop_ok hs (.inl rfl)) (bind_panic (ih _ ?_))
      rw [hs] at h; simpa using h

theorem pops_ok : ∀ (ts : List StackType) (m : Mach), FitsTop ts m.br.stack →
    X.pops ts m = .ok () (m.onStack (m.br.stack.drop ts.length)) := by
  intro ts
  induction ts with
  | nil => intro m _; rfl
  | cons t ts ih =>
    intro m h
    cases hs : m.br.stack with
    | nil => rw [hs] at h; exact h.elim
    | cons v s =>
      rw [hs] at h
      unfold X.pops
      rw [X.ok_bind (pop_ok hs h.1), ih _ h.2]
      rfl

theorem pops_panic : ∀ (ts : List StackType) (m : Mach), ¬ FitsTop ts m.br.stack →
    ∃ e m', X.pops ts m = .panic e m' := by
  intro ts
  induction ts with
  | nil => intro m h; exact (h trivial).elim
  | cons t ts ih =>
    intro m h
    unfold X.pops
    by_cases h1 : FitsTop [t] m.br.stack
    · cases hs : m.br.stack with
      | nil => rw [hs] at h1; exact h1.elim
      | cons v s =>
        rw [hs] at h h1
        exact bind_panic_of (pop_ok hs h1.1) (ih _ fun h2 => h ⟨h1.1, h2⟩)
    · exact bind_panic (pop_panic h1)

theorem pushes_ok : ∀ (ts : List StackType) (m : Mach),
    X.pushes ts m = .ok () (m.onStack ((ts.map fun t => (⟨t, .none⟩ : VmValue)).reverse ++ m.br.stack)) := by
  intro ts
  induction ts with
  | nil => intro m; rfl
  | cons t ts ih =>
    intro m
    unfold X.pushes
    rw [X.ok_bind (show X.push ⟨t, .none⟩ m = .ok () (m.onStack (⟨t, .none⟩ :: m.br.stack)) from rfl), ih]
    simp

theorem pushAll_ok : ∀ (vs : List VmValue) (m : Mach),
    X.pushAll vs m = .ok () (m.onStack (vs.reverse ++ m.br.stack)) := by
  intro vs
  induction vs with
  | nil => intro m; rfl
  | cons v vs ih =>
    intro m
    unfold X.pushAll
    rw [X.ok_bind (show X.push v m = .ok () (m.onStack (v :: m.br.stack)) from rfl), ih]
    simp

theorem push_ok (v : VmValue) (m : Mach) : X.push v m = .ok () (m.onStack (v :: m.br.stack)) := rfl

/-! ## Effects -/

/-- What `x` takes from the stack (the top first) and leaves on it (the top last). -/
def EffAt (x : X Unit) (ins outs : List StackType) (m : Mach) : Prop :=
  (FitsTop ins m.br.stack → ∃ vs m', x m = .ok () m' ∧ m'.br.stack = vs ++ m.br.stack.drop ins.length ∧
    Results outs vs) ∧
  (¬ FitsTop ins m.br.stack → ∃ e m', x m = .panic e m')

def Eff (x : X Unit) (ins outs : List StackType) : Prop := ∀ m : Mach, m.scratch.length = 256 →
  EffAt x ins outs m

theorem results_nil : Results [] [] := ⟨rfl, fun i t v h => by simp at h⟩

theorem results_one (t : StackType) (v : VmValue) (h : Gives t v) : Results [t] [v] := by
  refine ⟨rfl, fun i t' v' ht hv => ?_⟩
  cases i with
  | zero => simp at ht hv; subst ht; subst hv; exact h
  | succ i => simp at ht

theorem results_map (ts : List StackType) (vs : List VmValue) (h : vs.map (·.t) = ts.reverse) :
    Results ts vs := by
  refine ⟨by rw [← List.length_reverse (as := ts), ← h, List.length_map], fun i t v ht hv => .inr ?_⟩
  rw [← h, List.getElem?_map, hv] at ht
  simpa using ht

theorem results_any (n : Nat) (vs : List VmValue) (h : vs.length = n) :
    Results (List.replicate n .any) vs := by
  refine ⟨by simp [h], fun i t v ht _ => .inl ?_⟩
  rw [List.reverse_replicate, List.getElem?_replicate] at ht
  split at ht <;> simp at ht
  exact ht.symm

theorem Eff.of {x : X Unit} {ins outs : List StackType} {y : X Unit}
    (h : x = (X.pops ins >>= fun _ => y))
    (hy : ∀ m : Mach, m.scratch.length = 256 → ∃ vs m', y m = .ok () m' ∧ m'.br.stack = vs ++ m.br.stack ∧ Results outs vs) :
    Eff x ins outs := by
  intro m hm
  subst h
  constructor
  · intro hf
    obtain ⟨vs, m', h1, h2, h3⟩ := hy (m.onStack (m.br.stack.drop ins.length)) hm
    exact ⟨vs, m', by rw [X.ok_bind (pops_ok ins m hf), h1], h2, h3⟩
  · intro hf
    exact bind_panic (pops_panic ins m hf)

theorem eff_pushes (outs : List StackType) : ∀ m : Mach, m.scratch.length = 256 →
    ∃ vs m', (X.pushes outs >>= fun _ => X.incLine) m = .ok () m' ∧ m'.br.stack = vs ++ m.br.stack ∧ Results outs vs := by
  intro m _
  refine ⟨_, _, X.ok_bind (pushes_ok outs m), rfl, results_map _ _ ?_⟩
  rw [List.map_reverse, List.map_map]
  congr 1
  exact List.map_id' _

theorem eff_push (v : VmValue) (t : StackType) (h : Gives t v) : ∀ m : Mach, m.scratch.length = 256 →
    ∃ vs m', (X.push v >>= fun _ => X.incLine) m = .ok () m' ∧ m'.br.stack = vs ++ m.br.stack ∧ Results [t] vs := by
  intro m _
  exact ⟨[v], _, X.ok_bind (push_ok v m), rfl, results_one _ _ h⟩

theorem Eff.simple (ins outs : List StackType) : Eff (X.simple ins outs) ins outs :=
  .of rfl (eff_pushes outs)

theorem Eff.nop (x : X Unit) (h : ∀ m, ∃ m', x m = .ok () m' ∧ m'.br.stack = m.br.stack) : Eff x [] [] := by
  refine .of (y := x) rfl fun m _ => ?_
  obtain ⟨m', h1, h2⟩ := h m
  exact ⟨[], m', h1, h2, results_nil⟩

/-- The type of the field is looked up first. -/
theorem Eff.field {g : FieldGroup} {f : Nat} (hf : f < g.specs.length) {t : StackType} (ht : g.specs[f].ftype = t)
    {ins outs : List StackType} {y : StackType → X Unit} (h : Eff (y t) ins outs) : Eff (X.fieldType g f >>= y) ins outs := by
  have e : X.fieldType g f = pure g.specs[f].ftype := by
    unfold X.fieldType
    rw [List.getElem?_eq_getElem hf]
  rw [e, ht]
  exact h

/-- The type of the field is looked up after the pops. -/
theorem Eff.popsField {g : FieldGroup} {f : Nat} (hf : f < g.specs.length) {t : StackType} (ht : g.specs[f].ftype = t)
    {ins outs : List StackType} {y : StackType → X Unit}
    (h : ∀ m : Mach, m.scratch.length = 256 → ∃ vs m', y t m = .ok () m' ∧ m'.br.stack = vs ++ m.br.stack ∧ Results outs vs) :
    Eff (X.pops ins >>= fun _ => X.fieldType g f >>= y) ins outs := by
  have e : X.fieldType g f = pure g.specs[f].ftype := by
    unfold X.fieldType
    rw [List.getElem?_eq_getElem hf]
  rw [e, ht]
  exact .of rfl h

/-- The types of the fields of a group, one by one. -/
theorem ftypes_eq {l : List FieldSpec} {letters : Bytes}
    (h : (l.map FieldSpec.ftype) = letters.map letterType) (f : Nat) (hf : f < l.length) : l[f].ftype = typeIn letters f := by
  have h1 : (l.map FieldSpec.ftype)[f]? = some l[f].ftype := by simp [hf]
  rw [h, List.getElem?_map] at h1
  unfold typeIn
  cases hc : letters[f]? with
  | none => rw [hc] at h1; cases h1
  | some c => rw [hc] at h1; exact (Option.some.inj h1).symm

theorem txn_type {f : Nat} (hf : f < FieldGroup.txn.specs.length) : FieldGroup.txn.specs[f].ftype = txnType f :=
  ftypes_eq (by decide +kernel) f hf

theorem global_type {f : Nat} (hf : f < FieldGroup.global.specs.length) : FieldGroup.global.specs[f].ftype = globalType f :=
  ftypes_eq (by decide +kernel) f hf

theorem block_type {f : Nat} (hf : f < FieldGroup.block.specs.length) : FieldGroup.block.specs[f].ftype = blockType f :=
  ftypes_eq (by decide +kernel) f hf

theorem assetHolding_type {f : Nat} (hf : f < FieldGroup.assetHolding.specs.length) :
    FieldGroup.assetHolding.specs[f].ftype = assetHoldingType f :=
  ftypes_eq (by decide +kernel) f hf

theorem assetParams_type {f : Nat} (hf : f < FieldGroup.assetParams.specs.length) :
    FieldGroup.assetParams.specs[f].ftype = assetParamsType f :=
  ftypes_eq (by decide +kernel) f hf

theorem appParams_type {f : Nat} (hf : f < FieldGroup.appParams.specs.length) :
    FieldGroup.appParams.specs[f].ftype = appParamsType f :=
  ftypes_eq (by decide +kernel) f hf

theorem acctParams_type {f : Nat} (hf : f < FieldGroup.acctParams.specs.length) :
    FieldGroup.acctParams.specs[f].ftype = acctParamsType f :=
  ftypes_eq (by decide +kernel) f hf

theorem eff_any {x : X Unit} {n : Nat} {outs : List StackType} {m : Mach}
    (h1 : n ≤ m.br.stack.length → ∃ vs m', x m = .ok () m' ∧ m'.br.stack = vs ++ m.br.stack.drop n ∧ Results outs vs)
    (h2 : m.br.stack.length < n → ∃ e m', x m = .panic e m') : EffAt x (List.replicate n .any) outs m := by
  refine ⟨fun h => ?_, fun h => ?_⟩
  · rw [List.length_replicate]; exact h1 ((fitsTop_any _ _).1 h)
  · exact h2 (by rw [fitsTop_any] at h; omega)

theorem drop_cons {s : List VmValue} {n : Nat} (h : n < s.length) : ∃ v, s[n]? = some v ∧ s.drop n = v :: s.drop (n + 1) :=
  ⟨s[n], List.getElem?_eq_getElem h, List.drop_eq_getElem_cons h⟩

/-! ## Rearranging the stack -/

theorem popn_ok {n : Nat} {m : Mach} (h : n ≤ m.br.stack.length) :
    U8Op.execute n .popn m = .ok () { m with br := (m.onStack (m.br.stack.drop n)).br.incLine } := by
  show (X.popN n >>= fun _ => X.incLine) m = _
  rw [X.ok_bind (popN_ok n m h)]; rfl

theorem popn_eff (n : Nat) (m : Mach) : EffAt (U8Op.execute n .popn) (List.replicate n .any) [] m := by
  refine eff_any (fun h => ⟨[], _, popn_ok h, rfl, results_nil⟩) fun h => ?_
  exact bind_panic (popN_panic n m h)

theorem cover_ok {n : Nat} {m : Mach} {a : VmValue} {s : List VmValue} (hs : m.br.stack = a :: s) (h : n ≤ s.length) :
    U8Op.execute n .cover m = .ok () { m with br := (m.onStack (s.take n ++ a :: s.drop n)).br.incLine } := by
  show (X.pop .any >>= fun v => X.popN n >>= fun is => X.push v >>= fun _ => X.pushAll is.reverse >>= fun _ => X.incLine) m = _
  rw [X.ok_bind (pop_ok hs (.inl rfl)), X.ok_bind (popN_ok n _ h), X.ok_bind (push_ok _ _), X.ok_bind (pushAll_ok _ _)]
  simp [X.incLine, X.modifyBr, Mach.onStack]

theorem cover_eff (n : Nat) (m : Mach) :
    EffAt (U8Op.execute n .cover) (List.replicate (n + 1) .any) (List.replicate (n + 1) .any) m := by
  refine eff_any (fun h => ?_) fun h => ?_
  · cases hs : m.br.stack with
    | nil => rw [hs] at h; simp at h
    | cons a s =>
      rw [hs] at h
      simp at h
      refine ⟨s.take n ++ [a], _, cover_ok hs h, ?_, results_any _ _ (by simp; omega)⟩
      simp [VmBranch.incLine]
  · show ∃ e m', (X.pop .any >>= fun v => X.popN n >>= fun is => X.push v >>= fun _ => X.pushAll is.reverse >>= fun _ => X.incLine) m = .panic e m'
    cases hs : m.br.stack with
    | nil => exact bind_panic (pop_panic (by rw [hs]; simp [FitsTop]))
    | cons a s =>
      rw [hs] at h; simp at h
      exact bind_panic_of (pop_ok hs (.inl rfl)) (bind_panic (popN_panic _ _ h))

theorem uncover_ok {n : Nat} {m : Mach} {a : VmValue} (h : m.br.stack[n]? = some a) :
    U8Op.execute n .uncover m = .ok () { m with br := (m.onStack (a :: (m.br.stack.take n ++ m.br.stack.drop (n + 1)))).br.incLine } := by
  have hn := (List.getElem?_eq_some_iff.1 h).1
  obtain ⟨a', h1, h2⟩ := drop_cons hn
  rw [h] at h1; cases h1
  show (X.popN n >>= fun is => X.pop .any >>= fun v => X.pushAll is.reverse >>= fun _ => X.push v >>= fun _ => X.incLine) m = _
  rw [X.ok_bind (popN_ok n m (by omega)), X.ok_bind (pop_ok (m := m.onStack _) h2 (.inl rfl)), X.ok_bind (pushAll_ok _ _), X.ok_bind (push_ok _ _)]
  simp [X.incLine, X.modifyBr, Mach.onStack]

theorem uncover_eff (n : Nat) (m : Mach) :
    EffAt (U8Op.execute n .uncover) (List.replicate (n + 1) .any) (List.replicate (n + 1) .any) m := by
  refine eff_any (fun h => ?_) fun h => ?_
  · obtain ⟨a, h1, -⟩ := drop_cons (s := m.br.stack) (n := n) (by omega)
    refine ⟨a :: m.br.stack.take n, _, uncover_ok h1, ?_, results_any _ _ (by simp; omega)⟩
    simp [VmBranch.incLine]
  · show ∃ e m', (X.popN n >>= fun is => X.pop .any >>= fun v => X.pushAll is.reverse >>= fun _ => X.push v >>= fun _ => X.incLine) m = .panic e m'
    by_cases hn : n ≤ m.br.stack.length
    · refine bind_panic_of (popN_ok n m hn) (bind_panic (pop_panic ?_))
      rw [show (m.onStack (m.br.stack.drop n)).br.stack = m.br.stack.drop n from rfl, List.drop_eq_nil_of_le (by omega)]
      simp [FitsTop]
    · exact bind_panic (popN_panic n m (by omega))

theorem dupn_ok {n : Nat} {m : Mach} {a : VmValue} {s : List VmValue} (hs : m.br.stack = a :: s) (h : n < 255) :
    U8Op.execute n .dupn m = .ok () { m with br := (m.onStack (List.replicate (n + 1) a ++ s)).br.incLine } := by
  unfold U8Op.execute
  dsimp only
  rw [X.ok_bind (pop_ok hs (.inl rfl)), if_neg (by omega), X.ok_bind (pushAll_ok _ _)]
  simp [X.incLine, X.modifyBr, Mach.onStack]

theorem dupn_eff (n : Nat) (m : Mach) (h : n < 255) :
    EffAt (U8Op.execute n .dupn) [.any] (List.replicate (n + 1) .any) m := by
  refine eff_any (n := 1) (fun h1 => ?_) fun h1 => ?_
  · cases hs : m.br.stack with
    | nil => rw [hs] at h1; simp at h1
    | cons a s => exact ⟨List.replicate (n + 1) a, _, dupn_ok hs h, rfl, results_any _ _ (by simp)⟩
  · have : m.br.stack = [] := List.length_eq_zero_iff.1 (by omega)
    exact bind_panic (pop_panic (by rw [this]; simp [FitsTop]))

theorem dig_ok {n : Nat} {m : Mach} {a : VmValue} (h : m.br.stack[n]? = some a) (hl : m.br.stack.length ≤ 256) :
    U8Op.execute n .dig m = .ok () { m with br := (m.onStack (a :: m.br.stack)).br.incLine } := by
  have hn := (List.getElem?_eq_some_iff.1 h).1
  show (X.itemAt ((m.br.stack.length + 255 - n) % 256) >>= fun v => X.push v >>= fun _ => X.incLine) m = _
  have e : (m.br.stack.length + 255 - n) % 256 = m.br.stack.length - 1 - n := by omega
  rw [e, X.ok_bind (show X.itemAt (m.br.stack.length - 1 - n) m = .ok a m from ?_)]
  · rfl
  · unfold X.itemAt
    rw [List.getElem?_reverse (by omega), show m.br.stack.length - 1 - (m.br.stack.length - 1 - n) = n by omega, h]

theorem dig_eff (n : Nat) (m : Mach) (hn : n < 256) (hl : m.br.stack.length ≤ 256) :
    EffAt (U8Op.execute n .dig) (List.replicate (n + 1) .any) (List.replicate (n + 2) .any) m := by
  refine eff_any (fun h => ?_) fun h => ?_
  · obtain ⟨a, h1, -⟩ := drop_cons (s := m.br.stack) (n := n) (by omega)
    refine ⟨a :: m.br.stack.take (n + 1), _, dig_ok h1 hl, ?_, results_any _ _ (by simp; omega)⟩
    simp [VmBranch.incLine]
  · show ∃ e m', (X.itemAt ((m.br.stack.length + 255 - n) % 256) >>= fun v => X.push v >>= fun _ => X.incLine) m = .panic e m'
    refine bind_panic ⟨.index, m, ?_⟩
    unfold X.itemAt
    rw [List.getElem?_eq_none]
    rw [List.length_reverse]; omega

theorem swap_ok {m : Mach} {a b : VmValue} {s : List VmValue} (hs : m.br.stack = b :: a :: s) :
    (Plain.execute .swap).getD X.incLine m = .ok () { m with br := (m.onStack (a :: b :: s)).br.incLine } := by
  show (X.pop .any >>= fun v1 => X.pop .any >>= fun v2 => X.pushAll [v1, v2] >>= fun _ => X.incLine) m = _
  rw [X.ok_bind (pop_ok hs (.inl rfl)), X.ok_bind (pop_ok (m := m.onStack _) rfl (.inl rfl)), X.ok_bind (pushAll_ok _ _)]
  rfl

theorem dup_ok {m : Mach} {a : VmValue} {s : List VmValue} (hs : m.br.stack = a :: s) :
    (Plain.execute .dup).getD X.incLine m = .ok () { m with br := (m.onStack (a :: a :: s)).br.incLine } := by
  show (X.pop .any >>= fun v1 => X.pushAll [v1, v1] >>= fun _ => X.incLine) m = _
  rw [X.ok_bind (pop_ok hs (.inl rfl)), X.ok_bind (pushAll_ok _ _)]
  rfl

theorem dup2_ok {m : Mach} {a b : VmValue} {s : List VmValue} (hs : m.br.stack = b :: a :: s) :
    (Plain.execute .dup2).getD X.incLine m = .ok () { m with br := (m.onStack (a :: b :: a :: b :: s)).br.incLine } := by
  show (X.pop .any >>= fun v1 => X.pop .any >>= fun v2 => X.pushAll [v1, v2, v1, v2] >>= fun _ => X.incLine) m = _
  rw [X.ok_bind (pop_ok hs (.inl rfl)), X.ok_bind (pop_ok (m := m.onStack _) rfl (.inl rfl)), X.ok_bind (pushAll_ok _ _)]
  rfl

theorem two_panic {f : VmValue → VmValue → X Unit} {m : Mach} (h : m.br.stack.length < 2) :
    ∃ e m', (X.pop .any >>= fun v1 => X.pop .any >>= fun v2 => f v1 v2) m = .panic e m' := by
  cases hs : m.br.stack with
  | nil => exact bind_panic (pop_panic (by rw [hs]; simp [FitsTop]))
  | cons a s =>
    rw [hs] at h
    have h' : s = [] := List.length_eq_zero_iff.1 (by simp at h; omega)
    subst h'
    exact bind_panic_of (pop_ok hs (.inl rfl)) (bind_panic (pop_panic (by simp [FitsTop])))

theorem bury_ok {n : Nat} {m : Mach} {a : VmValue} {s : List VmValue} (hs : m.br.stack = a :: s) (h : n < s.length) :
    U8Op.execute n .bury m = .ok () { m with br := (m.onStack ((s.reverse.set n a).reverse)).br.incLine } := by
  show (X.pop .any >>= fun v => X.replace n v >>= fun _ => X.incLine) m = _
  rw [X.ok_bind (pop_ok hs (.inl rfl))]
  have e : X.replace n a (m.onStack s) = .ok () (m.onStack (s.reverse.set n a).reverse) := by
    unfold X.replace
    rw [if_pos (show n < (m.onStack s).br.stack.length from h)]; rfl
  rw [X.ok_bind e]; rfl

theorem two_cases {s : List VmValue} (h : 2 ≤ s.length) : ∃ b a r, s = b :: a :: r := by
  match s, h with
  | b :: a :: r, _ => exact ⟨b, a, r, rfl⟩

theorem load_eff (n : Nat) (hn : n < 256) : Eff (U8Op.execute n .load) [] [.any] := by
  intro m hm
  refine ⟨fun _ => ?_, fun h => (h trivial).elim⟩
  have e : X.scratchAt n m = .ok (m.scratch[n]'(by omega)) m := by
    unfold X.scratchAt
    rw [List.getElem?_eq_getElem (by omega)]
  show ∃ vs m', (X.scratchAt n >>= fun v => X.push ⟨.any, .val v.t v.src⟩ >>= fun _ => X.incLine) m = .ok () m' ∧ _
  rw [X.ok_bind e]
  exact ⟨[_], _, X.ok_bind (push_ok _ _), rfl, results_one _ _ (.inl rfl)⟩

theorem store_eff (n : Nat) (hn : n < 256) : Eff (U8Op.execute n .store) [.any] [] := by
  intro m hm
  refine eff_any (n := 1) (fun h => ?_) fun h => ?_
  · cases hs : m.br.stack with
    | nil => rw [hs] at h; simp at h
    | cons a s =>
      show ∃ vs m', (X.pop .any >>= fun v => X.store ⟨.uint64, .uint n⟩ v >>= fun _ => X.incLine) m = .ok () m' ∧ _
      rw [X.ok_bind (pop_ok hs (.inl rfl))]
      have e : X.store ⟨.uint64, .uint n⟩ a (m.onStack s) = .ok () { m.onStack s with scratch := m.scratch.set n a } := by
        unfold X.store
        dsimp only
        rw [if_pos (by rw [Mach.onStack_scratch]; omega)]; rfl
      rw [X.ok_bind e]
      exact ⟨[], _, rfl, rfl, results_nil⟩
  · have : m.br.stack = [] := List.length_eq_zero_iff.1 (by omega)
    exact bind_panic (pop_panic (by rw [this]; simp [FitsTop]))

end Teal
