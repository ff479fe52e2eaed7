import Verif.Lemmas.VmStack

/-!
# The instructions follow the table of operands and results
-/

namespace Teal
open Teal.Spec

theorem Eff.exit {ins : List StackType} : Eff (X.pops ins >>= fun _ => X.modifyBr VmBranch.exit) ins [] :=
  .of rfl fun _ _ => ⟨[], _, rfl, rfl, results_nil⟩

theorem Eff.inc : Eff X.incLine [] [] := .nop _ fun _ => ⟨_, rfl, rfl⟩

theorem Eff.value {ins : List StackType} {v : VmValue} {t : StackType} (h : Gives t v) :
    Eff (X.pops ins >>= fun _ => X.push v >>= fun _ => X.incLine) ins [t] :=
  .of rfl (eff_push v t h)

theorem Eff.const {v : VmValue} {t : StackType} (h : Gives t v) :
    Eff (X.push v >>= fun _ => X.incLine) [] [t] := .of (y := X.push v >>= fun _ => X.incLine) rfl (eff_push v t h)

/-- A pop whose value is used later. -/
theorem Eff.pop {t : StackType} {ins outs : List StackType} {y : VmValue → X Unit} (h : ∀ v, Eff (y v) ins outs) :
    Eff (X.pop t >>= y) (t :: ins) outs := by
  intro m hm
  cases hs : m.br.stack with
  | nil => exact ⟨fun hf => by rw [hs] at hf; exact hf.elim, fun _ => bind_panic (pop_panic (by rw [hs]; simp [FitsTop]))⟩
  | cons v s =>
    by_cases h1 : Suits t v
    · have e : (X.pop t >>= y) m = y v (m.onStack s) := X.ok_bind (pop_ok hs h1)
      obtain ⟨h2, h3⟩ := h v (m.onStack s) hm
      unfold EffAt
      rw [e, hs]
      exact ⟨fun hf => h2 hf.2, fun hf => h3 fun h4 => hf ⟨h1, h4⟩⟩
    · refine ⟨fun hf => ?_, fun _ => bind_panic (pop_panic (by rw [hs]; exact fun h4 => h1 h4.1))⟩
      rw [hs] at hf
      exact absurd hf.1 h1

theorem dup_eff (m : Mach) : EffAt ((Plain.execute .dup).getD X.incLine) [.any] [.any, .any] m := by
  refine eff_any (n := 1) (fun h => ?_) fun h => ?_
  · cases hs : m.br.stack with
    | nil => rw [hs] at h; simp at h
    | cons a s => exact ⟨[a, a], _, dup_ok hs, rfl, results_any 2 _ rfl⟩
  · have : m.br.stack = [] := List.length_eq_zero_iff.1 (by omega)
    exact bind_panic (pop_panic (by rw [this]; simp [FitsTop]))

theorem dup2_eff (m : Mach) :
    EffAt ((Plain.execute .dup2).getD X.incLine) [.any, .any] [.any, .any, .any, .any] m := by
  refine eff_any (n := 2) (fun h => ?_) fun h => two_panic h
  obtain ⟨b, a, r, hs⟩ := two_cases h
  rw [hs]
  exact ⟨[a, b, a, b], _, dup2_ok hs, rfl, results_any 4 _ rfl⟩

theorem swap_eff (m : Mach) : EffAt ((Plain.execute .swap).getD X.incLine) [.any, .any] [.any, .any] m := by
  refine eff_any (n := 2) (fun h => ?_) fun h => two_panic h
  obtain ⟨b, a, r, hs⟩ := two_cases h
  rw [hs]
  exact ⟨[a, b], _, swap_ok hs, rfl, results_any 2 _ rfl⟩

theorem plain_eff {k : Plain} {args rets : List StackType} (h : effect (.plain k) = some (args, rets))
    (hw : ¬ WrongOperands (.plain k)) (m : Mach) (hm : m.scratch.length = 256) :
    EffAt (k.execute.getD X.incLine) args.reverse rets m := by
  cases k
  case retsub => cases h
  case bitlen => exact (hw .bitlen).elim
  case getbit => exact (hw .getbit).elim
  case setbit => exact (hw .setbit).elim
  case appOptedIn => exact (hw .appOptedIn).elim
  case bminus => exact (hw .bminus).elim
  case bbitOr => exact (hw .bbitOr).elim
  case extractUint64 => exact (hw .extractUint64).elim
  case stores => exact (hw .stores).elim
  case dup => cases h; exact dup_eff m
  case dup2 => cases h; exact dup2_eff m
  case swap => cases h; exact swap_eff m
  case err => cases h; exact Eff.nop (X.modifyBr VmBranch.exit) (fun m => ⟨_, rfl, rfl⟩) m hm
  case returnOp => cases h; exact Eff.exit m hm
  case sha256 => cases h; exact Eff.pop (t := .bytes) (fun v => Eff.const (v := ⟨.bytes, .sha256 v.t v.src⟩) (.inr rfl)) m hm
  case ed25519verify =>
    cases h
    exact Eff.pop (t := .bytes) (fun v1 => Eff.pop (t := .bytes) fun v2 => Eff.pop (t := .bytes) fun v3 =>
      Eff.const (v := ⟨.uint64, .ed25519verify v1.t v1.src v2.t v2.src v3.t v3.src⟩) (.inr rfl)) m hm
  all_goals (cases h; first | exact Eff.simple _ _ m hm | exact Eff.inc m hm)

theorem u8_eff {k : U8Op} {n : Nat} {args rets : List StackType} (h : effect (.u8 k n) = some (args, rets))
    (hr : n < 256) (hw : ¬ WrongOperands (.u8 k n)) (hd : k = .dupn → n < 255) (m : Mach) (hm : m.scratch.length = 256)
    (hl : k = .dig → m.br.stack.length ≤ 256) : EffAt (k.execute n) args.reverse rets m := by
  cases k
  case bury => exact (hw (.bury n)).elim
  case popn => cases h; rw [List.reverse_replicate]; exact popn_eff n m
  case dupn => cases h; exact dupn_eff n m (hd rfl)
  case dig => cases h; rw [List.reverse_replicate]; exact dig_eff n m hr (hl rfl)
  case cover => cases h; rw [List.reverse_replicate]; exact cover_eff n m
  case uncover => cases h; rw [List.reverse_replicate]; exact uncover_eff n m
  case load => cases h; exact load_eff n hr m hm
  case store => cases h; exact store_eff n hr m hm
  all_goals (cases h; exact Eff.simple _ _ m hm)

theorem Eff.pushT (t : StackType) : Eff (X.pushes [t] >>= fun _ => X.incLine) [] [t] :=
  .of (y := X.pushes [t] >>= fun _ => X.incLine) rfl (eff_pushes _)

theorem Eff.popPushT (ins : List StackType) (t : StackType) :
    Eff (X.pops ins >>= fun _ => X.pushes [t] >>= fun _ => X.incLine) ins [t] :=
  .of rfl (eff_pushes _)

theorem field_eff {k : FieldOp} {f : Nat} {args rets : List StackType} (h : effect (.field k f) = some (args, rets))
    (hr : f < fieldCount k) (m : Mach) (hm : m.scratch.length = 256) :
    EffAt (k.execute f) args.reverse rets m := by
  cases k
  case txn => cases h; exact Eff.field (g := .txn) hr (txn_type hr) (.pushT _) m hm
  case itxn => cases h; exact Eff.field (g := .txn) hr (txn_type hr) (.pushT _) m hm
  case globalOp => cases h; exact Eff.field (g := .global) hr (global_type hr) (.pushT _) m hm
  case gtxns => cases h; exact Eff.field (g := .txn) hr (txn_type hr) (.popPushT _ _) m hm
  case txnas => cases h; exact Eff.popsField (g := .txn) hr (txn_type hr) (eff_pushes _) m hm
  case itxnas => cases h; exact Eff.popsField (g := .txn) hr (txn_type hr) (eff_pushes _) m hm
  case gtxnsas => cases h; exact Eff.popsField (g := .txn) (ins := [.uint64, .uint64]) hr (txn_type hr) (eff_pushes _) m hm
  case block => cases h; exact Eff.popsField (g := .block) hr (block_type hr) (eff_pushes _) m hm
  case assetHoldingGet => cases h; exact Eff.popsField (g := .assetHolding) (ins := [.uint64, .any]) hr (assetHolding_type hr) (eff_pushes _) m hm
  case assetParamsGet => cases h; exact Eff.popsField (g := .assetParams) hr (assetParams_type hr) (eff_pushes _) m hm
  case appParamsGet => cases h; exact Eff.popsField (g := .appParams) hr (appParams_type hr) (eff_pushes _) m hm
  case acctParamsGet => cases h; exact Eff.popsField (g := .acctParams) hr (acctParams_type hr) (eff_pushes _) m hm
  case ecdsaVerify =>
    cases h
    exact Eff.pop (t := .bytes) (fun v1 => Eff.pop (t := .bytes) fun v2 => Eff.pop (t := .bytes) fun v3 =>
      Eff.pop (t := .bytes) fun v4 => Eff.pop (t := .bytes) fun v5 => Eff.const
        (v := ⟨.uint64, .ecdsaVerify v1.t v1.src v2.t v2.src v3.t v3.src v4.t v4.src v5.t v5.src⟩) (.inr rfl)) m hm
  all_goals (cases h; exact Eff.simple _ _ m hm)

theorem eff_forkAll (l : List Op) (bps : List Nat) (ts : List Bytes) : ∀ m : Mach, m.scratch.length = 256 →
    ∃ vs m', (X.forkAll l bps ts >>= fun _ => X.incLine) m = .ok () m' ∧ m'.br.stack = vs ++ m.br.stack ∧ Results [] vs := by
  intro m _
  exact ⟨[], _, X.ok_bind (forkAll_apply l bps ts m), rfl, results_nil⟩

theorem map_const_t (vs : List Nat) (t : StackType) :
    Results (vs.map fun _ => t) ((vs.map fun _ => t).map fun t => (⟨t, .none⟩ : VmValue)).reverse := by
  apply results_map
  simp

/-- Every instruction follows the table, up to the listed deviations. -/
theorem executeOp_eff (v : Vm) {o : Op} {args rets : List StackType} (h : effect o = some (args, rets))
    (hr : OperandInRange o) (hw : ¬ WrongOperands o) (hd : ∀ n, o = .u8 .dupn n → n < 255) (m : Mach)
    (hm : m.scratch.length = 256) (hl : ∀ n, o = .u8 .dig n → m.br.stack.length ≤ 256) :
    ∃ outs, EffAt (v.executeOp o) args.reverse outs m ∧ (¬ WrongResults o → outs = rets) := by
  unfold Vm.executeOp
  cases o with
  | empty => cases h
  | label _ => cases h
  | pragma _ => cases h
  | comment _ => cases h
  | plain k => exact ⟨rets, plain_eff h hw m hm, fun _ => rfl⟩
  | u8 k n =>
    exact ⟨rets, u8_eff h hr hw (fun hk => hd n (by rw [hk])) m hm (fun hk => hl n (by rw [hk])), fun _ => rfl⟩
  | u8u8 k a b =>
    cases k
    case proto => cases h
    all_goals (cases h; exact ⟨_, Eff.simple _ _ m hm, fun _ => rfl⟩)
  | i8 k i => cases h
  | field k f => exact ⟨rets, field_eff h hr m hm, fun _ => rfl⟩
  | fieldIdx k f i =>
    cases k
    case txna => cases h; exact ⟨_, Eff.field (g := .txn) hr (txn_type hr) (.pushT _) m hm, fun _ => rfl⟩
    case gtxnsa => cases h; exact ⟨_, Eff.field (g := .txn) hr (txn_type hr) (.popPushT _ _) m hm, fun _ => rfl⟩
    case itxna => cases h; exact ⟨[], Eff.inc m hm, fun hn => (hn (.itxna f i)).elim⟩
  | groupField k t f =>
    cases k
    case gtxn => cases h; exact ⟨_, Eff.field (g := .txn) hr (txn_type hr) (.pushT _) m hm, fun _ => rfl⟩
    case gitxn => cases h; exact ⟨_, Eff.field (g := .txn) hr (txn_type hr) (.pushT _) m hm, fun _ => rfl⟩
    case gtxnas => cases h; exact ⟨_, Eff.popsField (g := .txn) hr (txn_type hr) (eff_pushes _) m hm, fun _ => rfl⟩
    case gitxnas => cases h; exact ⟨_, Eff.popsField (g := .txn) hr (txn_type hr) (eff_pushes _) m hm, fun _ => rfl⟩
  | groupFieldIdx k t f i =>
    cases k <;> (cases h; exact ⟨_, Eff.field (g := .txn) hr (txn_type hr) (.pushT _) m hm, fun _ => rfl⟩)
  | int n => cases h; exact ⟨_, Eff.const (.inr rfl) m hm, fun _ => rfl⟩
  | pushint n => cases h; exact ⟨_, Eff.simple _ _ m hm, fun _ => rfl⟩
  | byte b => cases h; exact ⟨_, Eff.const (.inr rfl) m hm, fun _ => rfl⟩
  | pushbytes b => cases h; exact ⟨_, Eff.const (.inr rfl) m hm, fun _ => rfl⟩
  | addr a => cases h; exact ⟨[], Eff.inc m hm, fun hn => (hn (.addr a)).elim⟩
  | method s => cases h; exact ⟨_, Eff.const (.inr rfl) m hm, fun _ => rfl⟩
  | intcblock vs => cases h; exact ⟨_, Eff.inc m hm, fun _ => rfl⟩
  | bytecblock vs => cases h; exact ⟨_, Eff.inc m hm, fun _ => rfl⟩
  | pushints vs =>
    cases h
    exact ⟨_, Eff.of (y := X.pushes (vs.map fun _ => .bytes) >>= fun _ => X.incLine) (ins := []) rfl (eff_pushes _) m hm,
      fun hn => (hn (.pushints vs)).elim⟩
  | pushbytess vs =>
    cases h
    refine ⟨_, Eff.of (y := X.pushAll (vs.map fun v => ⟨.bytes, .bytes v⟩) >>= fun _ => X.incLine) (ins := []) rfl (fun m _ => ?_) m hm, fun _ => rfl⟩
    refine ⟨_, _, X.ok_bind (pushAll_ok _ m), rfl, results_map _ _ ?_⟩
    simp
  | branch k t =>
    cases k
    case b => cases h; exact ⟨_, Eff.nop (X.jump v.listing t) (fun m => ⟨_, rfl, rfl⟩) m hm, fun _ => rfl⟩
    case callsub => cases h; exact ⟨_, Eff.nop (X.call v.listing t) (fun m => ⟨_, rfl, rfl⟩) m hm, fun _ => rfl⟩
    all_goals
      cases h
      refine ⟨[], Eff.of (ins := [.uint64]) (y := X.forkAll v.listing v.breakpoints [t] >>= fun _ => X.incLine) ?_ (eff_forkAll _ _ _) m hm, fun _ => rfl⟩
      rw [← fork_one]; rfl
  | switch ts => cases h; exact ⟨[], Eff.of rfl (eff_forkAll _ _ _) m hm, fun _ => rfl⟩
  | match_ ts =>
    cases h
    refine ⟨[], ?_, fun _ => rfl⟩
    rw [List.reverse_replicate]
    show EffAt (X.popN ts.length >>= fun _ => X.pops [.any] >>= fun _ => X.forkAll v.listing v.breakpoints ts >>= fun _ => X.incLine) _ _ _
    refine eff_any (fun h => ?_) fun h => ?_
    · obtain ⟨a, -, h1⟩ := drop_cons (s := m.br.stack) (n := ts.length) (by omega)
      rw [X.ok_bind (popN_ok _ _ (by omega)),
        X.ok_bind (pops_ok [.any] (m.onStack (m.br.stack.drop ts.length)) (by rw [Mach.onStack_stack, h1]; exact ⟨.inl rfl, trivial⟩)),
        X.ok_bind (forkAll_apply _ _ _ _)]
      exact ⟨[], _, rfl, by simp [VmBranch.incLine], results_nil⟩
    · by_cases hn : ts.length ≤ m.br.stack.length
      · refine bind_panic_of (popN_ok _ _ hn) (bind_panic (pops_panic _ _ ?_))
        rw [Mach.onStack_stack, List.drop_eq_nil_of_le (by omega)]
        simp [FitsTop]
      · exact bind_panic (popN_panic _ _ (by omega))

/-- An instruction whose cost cannot be determined has no operand. -/
theorem costs_error {version : Nat} {b : VmBranch} {o : Op} {e : VmErr} {args rets : List StackType}
    (h : effect o = some (args, rets)) (hr : OperandInRange o) (hc : o.costs version b = .error e) :
    ¬ StackFits args b.stack := by
  have ec : ∀ {x y : Int} {g : Nat}, g < 4 → ecCosts x y g ≠ .error e := by
    intro x y g hg
    unfold ecCosts
    split
    · simp
    · split
      · simp
      · omega
  have ecd : ∀ {x y : Int} {g : Nat}, g < 2 → ecdsaCosts [x, y] g ≠ .error e := by
    intro x y g hg
    unfold ecdsaCosts
    match g, hg with
    | 0, _ => simp
    | 1, _ => simp
  have len : ∀ {f : Nat → Int}, lengthCosts f b = .error e → b.stack = [] := by
    intro f hf
    unfold lengthCosts at hf
    split at hf
    · assumption
    · cases hf
  cases o with
  | plain k => cases hc
  | field k f =>
    cases k
    case ecdsaVerify => exact absurd hc (ecd hr)
    case ecdsaPkDecompress => exact absurd hc (ecd hr)
    case base64Decode => cases h; rw [len hc]; rintro ⟨h1, -⟩; simp at h1
    case jsonRef => cases h; rw [len hc]; rintro ⟨h1, -⟩; simp at h1
    case ecAdd => exact absurd hc (ec hr)
    case ecScalarMul => exact absurd hc (ec hr)
    case ecPairingCheck => exact absurd hc (ec hr)
    case ecMultiExp => exact absurd hc (ec hr)
    case ecSubgroupCheck => exact absurd hc (ec hr)
    case ecMapTo => exact absurd hc (ec hr)
    all_goals cases hc
  | _ => cases hc

end Teal
