import Verif.Model.Vm
import Verif.Spec.Flow

/-!
# What executing one instruction changes
-/

namespace Teal

namespace X

theorem bind_apply {α β : Type} (x : X α) (f : α → X β) (m : Mach) :
    (x >>= f) m = match x m with
      | .ok a m => f a m
      | .panic e m => .panic e m
      | .hang => .hang := rfl

theorem pure_apply {α : Type} (a : α) (m : Mach) : (pure a : X α) m = .ok a m := rfl

end X

/-- Only the stack and the scratch space change. -/
def Chg (m m' : Mach) : Prop :=
  ∃ s sc, sc.length = m.scratch.length ∧ m' = { m with br := { m.br with stack := s }, scratch := sc }

theorem Chg.refl (m : Mach) : Chg m m := ⟨m.br.stack, m.scratch, rfl, rfl⟩

theorem Chg.trans {a b c : Mach} (h1 : Chg a b) (h2 : Chg b c) : Chg a c := by
  obtain ⟨s, sc, h, rfl⟩ := h1
  obtain ⟨s', sc', h', rfl⟩ := h2
  exact ⟨s', sc', h'.trans h, rfl⟩

/-- Outcomes that only change the stack and the scratch space. -/
def BodyOk {α : Type} (m : Mach) : XRes α → Prop
  | .ok _ m' => Chg m m'
  | .panic _ m' => Chg m m'
  | .hang => False

/-- `x` always ends and only changes the stack and the scratch space. -/
def Body {α : Type} (x : X α) : Prop := ∀ m, BodyOk m (x m)

theorem Body.bind {α β : Type} {x : X α} {f : α → X β} (hx : Body x) (hf : ∀ a, Body (f a)) :
    Body (x >>= f) := by
  intro m
  rw [X.bind_apply]
  have h := hx m
  cases hr : x m with
  | ok a m1 =>
    rw [hr] at h
    have h2 := hf a m1
    show BodyOk m (f a m1)
    cases hr2 : f a m1 with
    | ok b m2 => rw [hr2] at h2; exact h.trans h2
    | panic e m2 => rw [hr2] at h2; exact h.trans h2
    | hang => rw [hr2] at h2; exact h2
  | panic e m1 => rw [hr] at h; exact h
  | hang => rw [hr] at h; exact h.elim

theorem Body.pure {α : Type} (a : α) : Body (pure a : X α) := fun m => Chg.refl m

theorem Body.throw {α : Type} (e : VmErr) : Body (X.throw e : X α) := fun m => Chg.refl m

theorem Body.push (v : VmValue) : Body (X.push v) := fun m => ⟨_, m.scratch, rfl, rfl⟩

theorem Body.pop (t : StackType) : Body (X.pop t) := by
  intro m
  unfold X.pop
  split
  · exact Chg.refl m
  · split
    · exact ⟨_, m.scratch, rfl, rfl⟩
    · exact Chg.refl m

theorem Body.popN (n : Nat) : Body (X.popN n) := by
  induction n with
  | zero => exact Body.pure _
  | succ n ih =>
    unfold X.popN
    exact (Body.pop _).bind fun v => ih.bind fun vs => Body.pure _

theorem Body.pops (ts : List StackType) : Body (X.pops ts) := by
  induction ts with
  | nil => exact Body.pure _
  | cons t ts ih =>
    unfold X.pops
    exact (Body.pop t).bind fun _ => ih

theorem Body.pushes (ts : List StackType) : Body (X.pushes ts) := by
  induction ts with
  | nil => exact Body.pure _
  | cons t ts ih =>
    unfold X.pushes
    exact (Body.push _).bind fun _ => ih

theorem Body.pushAll (vs : List VmValue) : Body (X.pushAll vs) := by
  induction vs with
  | nil => exact Body.pure _
  | cons v vs ih =>
    unfold X.pushAll
    exact (Body.push _).bind fun _ => ih

theorem Body.itemAt (n : Nat) : Body (X.itemAt n) := by
  intro m
  unfold X.itemAt
  split <;> exact Chg.refl m

theorem Body.replace (n : Nat) (v : VmValue) : Body (X.replace n v) := by
  intro m
  unfold X.replace
  split
  · exact ⟨_, m.scratch, rfl, rfl⟩
  · exact Chg.refl m

theorem Body.store (i v : VmValue) : Body (X.store i v) := by
  intro m
  unfold X.store
  split
  · split
    · exact ⟨m.br.stack, _, List.length_set, rfl⟩
    · exact Chg.refl m
  · exact Chg.refl m

theorem Body.scratchAt (n : Nat) : Body (X.scratchAt n) := by
  intro m
  unfold X.scratchAt
  split <;> exact Chg.refl m

theorem Body.topFrame : Body X.topFrame := by
  intro m
  unfold X.topFrame
  split <;> exact Chg.refl m

theorem Body.fieldType (g : FieldGroup) (f : Nat) : Body (X.fieldType g f) := by
  unfold X.fieldType
  split
  · exact Body.pure _
  · exact Body.throw _

/-- `x` is a body followed by `b.Line++`. -/
def Straight (x : X Unit) : Prop := ∃ y : X Unit, Body y ∧ x = (y >>= fun _ => X.incLine)

theorem X.bind_assoc {α β γ : Type} (x : X α) (f : α → X β) (g : β → X γ) :
    ((x >>= f) >>= g) = (x >>= fun a => f a >>= g) := by
  funext m
  simp only [X.bind_apply]
  cases x m <;> rfl

theorem Straight.bind {α : Type} {x : X α} {f : α → X Unit} (hx : Body x)
    (hf : ∀ a, Straight (f a)) : Straight (x >>= f) := by
  refine ⟨x >>= fun a => (hf a).choose, hx.bind fun a => (hf a).choose_spec.1, ?_⟩
  rw [X.bind_assoc]
  congr 1
  funext a
  exact (hf a).choose_spec.2

theorem Straight.inc : Straight X.incLine := ⟨pure (), Body.pure _, rfl⟩

theorem Straight.simple (ins outs : List StackType) : Straight (X.simple ins outs) :=
  .bind (.pops _) fun _ => .bind (.pushes _) fun _ => .inc

/-- The branches `fork` creates for a list of targets. -/
def forkBranches (l : List Op) (bps : List Nat) (b : VmBranch) :
    Nat → List Bytes → List (Bool × VmBranch × List (Nat × Nat))
  | _, [] => []
  | id, t :: ts =>
    ({ id := id, line := findLabel l t, stack := b.stack, frames := [], budget := b.budget,
       name := t, trace := b.trace : VmBranch }.skipNops l bps) :: forkBranches l bps b (id + 1) ts

theorem forkBranches_length (l : List Op) (bps : List Nat) (b : VmBranch) (id : Nat)
    (ts : List Bytes) : (forkBranches l bps b id ts).length = ts.length := by
  induction ts generalizing id with
  | nil => rfl
  | cons t ts ih => simp [forkBranches, ih]

theorem forkAll_apply (l : List Op) (bps : List Nat) (ts : List Bytes) (m : Mach) :
    X.forkAll l bps ts m = .ok () { m with
      nextId := m.nextId + ts.length
      forks := m.forks ++ (forkBranches l bps m.br m.nextId ts).map (·.2.1)
      trig := m.trig ++ (forkBranches l bps m.br m.nextId ts).flatMap (·.2.2) } := by
  induction ts generalizing m with
  | nil => simp [X.forkAll, forkBranches, X.pure_apply]
  | cons t ts ih =>
    unfold X.forkAll
    rw [X.bind_apply]
    unfold X.fork
    dsimp only
    rw [ih]
    simp [forkBranches, Nat.add_assoc, Nat.add_comm 1]

/-- The instructions that may go on at a label and at the next line. -/
def Op.forksTo? : Op → Option (List Bytes)
  | .branch .bnz t => some [t]
  | .branch .bz t => some [t]
  | .switch ts => some ts
  | .match_ ts => some ts
  | _ => none

/-- What executing `o` does to the executing branch and its surroundings. -/
inductive ExecSpec (l : List Op) (bps : List Nat) (o : Op) (m : Mach) : XRes Unit → Prop
  | hang (n : Nat) : o = .u8 .dupn n → 255 ≤ n → ExecSpec l bps o m .hang
  | panic (e : VmErr) (m' : Mach) : Chg m m' → ExecSpec l bps o m (.panic e m')
  | straight (m1 : Mach) : o ≠ .plain .retsub → ¬ Spec.NoFallThrough o → o.forksTo? = none →
      Chg m m1 → ExecSpec l bps o m (.ok () { m1 with br := m1.br.incLine })
  | proto (a r : Nat) (f : VmFrame) (fs : List VmFrame) : o = .u8u8 .proto a r →
      m.br.frames = f :: fs →
      ExecSpec l bps o m (.ok () { m with
        br := { m.br with frames := { f with numArgs := a, numReturns := r } :: fs }.incLine })
  | exit (m1 : Mach) : Spec.Halts o → Chg m m1 →
      ExecSpec l bps o m (.ok () { m1 with br := m1.br.exit })
  | jump (t : Bytes) : o = .branch .b t →
      ExecSpec l bps o m (.ok () { m with br := { m.br with line := findLabel l t } })
  | call (t : Bytes) : o = .branch .callsub t →
      ExecSpec l bps o m (.ok () { m with br := { m.br with
        frames := { ret := m.br.line, numArgs := 0, numReturns := 0, p := m.br.stack.length % 256,
                    name := m.br.name } :: m.br.frames
        line := findLabel l t } })
  | ret (f : VmFrame) (fs : List VmFrame) (m1 : Mach) : o = .plain .retsub →
      m.br.frames = f :: fs → Chg m m1 →
      ExecSpec l bps o m (.ok () { m1 with br := { m1.br with
        line := some (match f.ret with | some i => i + 1 | none => 0), name := f.name, frames := fs } })
  | retNone : o = .plain .retsub → m.br.frames = [] →
      ExecSpec l bps o m (.ok () { m with br := m.br.incLine })
  | fork (ts : List Bytes) (m1 : Mach) : o.forksTo? = some ts → Chg m m1 →
      ExecSpec l bps o m (.ok () { m1 with
        br := m1.br.incLine
        nextId := m1.nextId + ts.length
        forks := m1.forks ++ (forkBranches l bps m1.br m1.nextId ts).map (·.2.1)
        trig := m1.trig ++ (forkBranches l bps m1.br m1.nextId ts).flatMap (·.2.2) })


theorem straight_spec {l : List Op} {bps : List Nat} {o : Op} {x : X Unit} (hx : Straight x)
    (h1 : o ≠ .plain .retsub) (h2 : ¬ Spec.NoFallThrough o) (h3 : o.forksTo? = none) (m : Mach) :
    ExecSpec l bps o m (x m) := by
  obtain ⟨y, hy, rfl⟩ := hx
  rw [X.bind_apply]
  have h := hy m
  cases hr : y m with
  | ok a m1 => rw [hr] at h; exact .straight m1 h1 h2 h3 h
  | panic e m1 => rw [hr] at h; exact .panic e m1 h
  | hang => rw [hr] at h; exact h.elim

theorem noFallThrough_u8 {k : U8Op} {n : Nat} : ¬ Spec.NoFallThrough (.u8 k n) := by
  rintro (⟨_, h⟩ | _ | _ | _); cases h

/-- The instructions without immediates that go on with the next line. -/
theorem plain_straight (k : Plain) (h1 : k ≠ .retsub) (h2 : k ≠ .err) (h3 : k ≠ .returnOp) :
    Straight (k.execute.getD X.incLine) := by
  cases k
  case retsub => exact absurd rfl h1
  case err => exact absurd rfl h2
  case returnOp => exact absurd rfl h3
  case sha256 => exact .bind (.pop _) fun _ => .bind (.push _) fun _ => .inc
  case ed25519verify =>
    exact .bind (.pop _) fun _ => .bind (.pop _) fun _ => .bind (.pop _) fun _ => .bind (.push _) fun _ => .inc
  case stores => exact .bind (.pop _) fun _ => .bind (.pop _) fun _ => .bind (.store _ _) fun _ => .inc
  case dup => exact .bind (.pop _) fun _ => .bind (.pushAll _) fun _ => .inc
  case dup2 => exact .bind (.pop _) fun _ => .bind (.pop _) fun _ => .bind (.pushAll _) fun _ => .inc
  case swap => exact .bind (.pop _) fun _ => .bind (.pop _) fun _ => .bind (.pushAll _) fun _ => .inc
  all_goals first | exact .simple _ _ | exact .inc

theorem u8_straight (k : U8Op) (n : Nat) (h : k = .dupn → n < 255) : Straight (k.execute n) := by
  cases k
  case load => exact .bind (.scratchAt _) fun _ => .bind (.push _) fun _ => .inc
  case store => exact .bind (.pop _) fun _ => .bind (.store _ _) fun _ => .inc
  case bury => exact .bind (.pop _) fun _ => .bind (.replace _ _) fun _ => .inc
  case popn => exact .bind (.popN _) fun _ => .inc
  case dupn =>
    have := h rfl
    refine .bind (.pop _) fun v => ?_
    dsimp only
    rw [if_neg (by omega)]
    exact .bind (.pushAll _) fun _ => .inc
  case dig =>
    refine ⟨fun m => (do let v ← X.itemAt ((m.br.stack.length + 255 - n) % 256); X.push v : X Unit) m,
      fun m => ?_, ?_⟩
    · exact (Body.bind (Body.itemAt _) fun _ => Body.push _) m
    · funext m
      show _ = (((X.itemAt ((m.br.stack.length + 255 - n) % 256) >>= fun v => X.push v) >>=
        fun _ => X.incLine) m)
      rw [X.bind_assoc]
      rfl
  case cover =>
    exact .bind (.pop _) fun _ => .bind (.popN _) fun _ => .bind (.push _) fun _ =>
      .bind (.pushAll _) fun _ => .inc
  case uncover =>
    exact .bind (.popN _) fun _ => .bind (.pop _) fun _ => .bind (.pushAll _) fun _ =>
      .bind (.push _) fun _ => .inc
  all_goals exact .simple _ _

theorem field_straight (k : FieldOp) (f : Nat) : Straight (k.execute f) := by
  cases k
  case itxnField => exact .simple _ _
  case ecdsaVerify =>
    exact .bind (.pop _) fun _ => .bind (.pop _) fun _ => .bind (.pop _) fun _ => .bind (.pop _) fun _ => .bind (.pop _) fun _ =>
      .bind (.push _) fun _ => .inc
  all_goals first
    | exact .simple _ _
    | exact .bind (.fieldType _ _) fun _ => .bind (.pops _) fun _ => .bind (.pushes _) fun _ => .inc
    | exact .bind (.fieldType _ _) fun _ => .bind (.pushes _) fun _ => .inc
    | exact .bind (.pops _) fun _ => .bind (.fieldType _ _) fun _ => .bind (.pushes _) fun _ => .inc

theorem X.ok_bind {α β : Type} {x : X α} {f : α → X β} {m m' : Mach} {a : α} (h : x m = .ok a m') :
    (x >>= f) m = f a m' := by rw [X.bind_apply, h]

theorem fork_spec {l : List Op} {bps : List Nat} {o : Op} {x : X Unit} {ts : List Bytes}
    (hx : Body x) (h : o.forksTo? = some ts) (m : Mach) :
    ExecSpec l bps o m ((x >>= fun _ => X.forkAll l bps ts >>= fun _ => X.incLine) m) := by
  rw [X.bind_apply]
  have hb := hx m
  cases hr : x m with
  | ok a m1 =>
    rw [hr] at hb
    show ExecSpec l bps o m ((X.forkAll l bps ts >>= fun _ => X.incLine) m1)
    rw [X.ok_bind (forkAll_apply l bps ts m1)]
    exact .fork ts m1 h hb
  | panic e m1 => rw [hr] at hb; exact .panic e m1 hb
  | hang => rw [hr] at hb; exact hb.elim

theorem fork_one (l : List Op) (bps : List Nat) (t : Bytes) :
    X.fork l bps t = X.forkAll l bps [t] := by
  funext m
  rw [forkAll_apply]
  simp [X.fork, forkBranches]

theorem executeOp_spec (v : Vm) (o : Op) (m : Mach) :
    ExecSpec v.listing v.breakpoints o m (v.executeOp o m) := by
  have nft : ∀ {o : Op}, (∀ k, o ≠ .plain k) → (∀ k n, o ≠ .branch k n) → ¬ Spec.NoFallThrough o := by
    rintro o h1 h2 (⟨_, h⟩ | _ | _ | _)
    · cases h <;> exact h1 _ rfl
    · exact h2 _ _ rfl
    · exact h2 _ _ rfl
    · exact h1 _ rfl
  unfold Vm.executeOp
  cases o with
  | plain k =>
    by_cases h1 : k = .retsub
    · subst h1
      show ExecSpec _ _ _ m (X.retsub m)
      unfold X.retsub
      split
      · exact .retNone rfl (by assumption)
      · rename_i f fs hf
        rw [X.bind_apply]
        have hb := Body.popN f.numReturns m
        cases hr : X.popN f.numReturns m with
        | hang => rw [hr] at hb; exact hb.elim
        | panic e m1 => rw [hr] at hb; exact .panic e m1 hb
        | ok rs m1 =>
          rw [hr] at hb
          dsimp only
          rw [X.bind_apply]
          have hb2 := Body.popN f.numArgs m1
          cases hr2 : X.popN f.numArgs m1 with
          | hang => rw [hr2] at hb2; exact hb2.elim
          | panic e m2 => rw [hr2] at hb2; exact .panic e m2 (hb.trans hb2)
          | ok rs2 m2 =>
            rw [hr2] at hb2
            dsimp only
            rw [X.bind_apply]
            have hb3 := Body.pushAll rs.reverse m2
            cases hr3 : X.pushAll rs.reverse m2 with
            | hang => rw [hr3] at hb3; exact hb3.elim
            | panic e m3 => rw [hr3] at hb3; exact .panic e m3 (hb.trans (hb2.trans hb3))
            | ok u m3 =>
              rw [hr3] at hb3
              exact .ret f fs m3 rfl hf (hb.trans (hb2.trans hb3))
    by_cases h2 : k = .err
    · subst h2
      exact .exit m .err (Chg.refl m)
    by_cases h3 : k = .returnOp
    · subst h3
      show ExecSpec _ _ _ m ((X.pops [.uint64] >>= fun _ => X.modifyBr VmBranch.exit) m)
      rw [X.bind_apply]
      have hb := Body.pops [.uint64] m
      cases hr : X.pops [.uint64] m with
      | hang => rw [hr] at hb; exact hb.elim
      | panic e m1 => rw [hr] at hb; exact .panic e m1 hb
      | ok u m1 => rw [hr] at hb; exact .exit m1 .ret hb
    refine straight_spec (plain_straight k h1 h2 h3) (by simpa using h1) ?_ rfl m
    rintro (⟨_, h⟩ | _ | _ | _)
    · cases h
      · exact h2 rfl
      · exact h3 rfl
    · exact h1 rfl
  | u8 k n =>
    by_cases hd : k = .dupn → n < 255
    · exact straight_spec (u8_straight k n hd) (by simp) noFallThrough_u8 rfl m
    · have hk : k = .dupn := Decidable.byContradiction fun h => hd fun h' => absurd h' h
      subst hk
      have hn : 255 ≤ n := Decidable.byContradiction fun h => hd fun _ => by omega
      show ExecSpec _ _ _ m ((X.pop .any >>= fun v => _) m)
      rw [X.bind_apply]
      have hb := Body.pop .any m
      cases hr : X.pop .any m with
      | hang => rw [hr] at hb; exact hb.elim
      | panic e m1 => rw [hr] at hb; exact .panic e m1 hb
      | ok u m1 =>
        dsimp only
        rw [if_pos (by omega)]
        exact .hang n rfl hn
  | u8u8 k a r =>
    cases k
    case proto =>
      show ExecSpec _ _ _ m ((X.prepare a r >>= fun _ => X.incLine) m)
      rw [X.bind_apply]
      unfold X.prepare
      cases hf : m.br.frames with
      | nil => exact .panic _ _ (Chg.refl m)
      | cons f fs => exact .proto a r f fs rfl hf
    all_goals
      exact straight_spec (.simple _ _) (by simp) (nft (by simp) (by simp)) rfl m
  | i8 k i =>
    refine straight_spec ?_ (by simp) (nft (by simp) (by simp)) rfl m
    cases k
    · exact .bind .topFrame fun _ => .bind (.itemAt _) fun _ => .bind (.push _) fun _ => .inc
    · exact .bind .topFrame fun _ => .bind (.pop _) fun _ => .bind (.replace _ _) fun _ => .inc
  | field k f => exact straight_spec (field_straight k f) (by simp) (nft (by simp) (by simp)) rfl m
  | fieldIdx k f i =>
    refine straight_spec ?_ (by simp) (nft (by simp) (by simp)) rfl m
    cases k
    · exact .bind (.fieldType _ _) fun _ => .bind (.pushes _) fun _ => .inc
    · exact .bind (.fieldType _ _) fun _ => .bind (.pops _) fun _ => .bind (.pushes _) fun _ => .inc
    · exact .inc
  | groupField k t f =>
    refine straight_spec ?_ (by simp) (nft (by simp) (by simp)) rfl m
    cases k
    · exact .bind (.fieldType _ _) fun _ => .bind (.pushes _) fun _ => .inc
    · exact .bind (.fieldType _ _) fun _ => .bind (.pushes _) fun _ => .inc
    · exact .bind (.pops _) fun _ => .bind (.fieldType _ _) fun _ => .bind (.pushes _) fun _ => .inc
    · exact .bind (.pops _) fun _ => .bind (.fieldType _ _) fun _ => .bind (.pushes _) fun _ => .inc
  | groupFieldIdx k t f i =>
    refine straight_spec ?_ (by simp) (nft (by simp) (by simp)) rfl m
    cases k
    · exact .bind (.fieldType _ _) fun _ => .bind (.pushes _) fun _ => .inc
    · exact .bind (.fieldType _ _) fun _ => .bind (.pushes _) fun _ => .inc
  | branch k t =>
    cases k
    · show ExecSpec _ _ _ m ((X.pops [.uint64] >>= fun _ => X.fork _ _ t >>= fun _ => X.incLine) m)
      rw [fork_one]
      exact fork_spec (.pops _) rfl m
    · show ExecSpec _ _ _ m ((X.pops [.uint64] >>= fun _ => X.fork _ _ t >>= fun _ => X.incLine) m)
      rw [fork_one]
      exact fork_spec (.pops _) rfl m
    · exact .jump t rfl
    · exact .call t rfl
  | switch ts => exact fork_spec (.pops _) rfl m
  | match_ ts =>
    show ExecSpec _ _ _ m ((X.popN ts.length >>= fun _ => X.pops [.any] >>= fun _ =>
      X.forkAll _ _ ts >>= fun _ => X.incLine) m)
    rw [← X.bind_assoc]
    exact fork_spec ((Body.popN _).bind fun _ => Body.pops _) rfl m
  | int v => exact straight_spec (.bind (.push _) fun _ => .inc) (by simp) (nft (by simp) (by simp)) rfl m
  | byte v => exact straight_spec (.bind (.push _) fun _ => .inc) (by simp) (nft (by simp) (by simp)) rfl m
  | pushbytes v => exact straight_spec (.bind (.push _) fun _ => .inc) (by simp) (nft (by simp) (by simp)) rfl m
  | method v => exact straight_spec (.bind (.push _) fun _ => .inc) (by simp) (nft (by simp) (by simp)) rfl m
  | pushints vs => exact straight_spec (.bind (.pushes _) fun _ => .inc) (by simp) (nft (by simp) (by simp)) rfl m
  | pushbytess vs => exact straight_spec (.bind (.pushAll _) fun _ => .inc) (by simp) (nft (by simp) (by simp)) rfl m
  | pushint v => exact straight_spec (.simple _ _) (by simp) (nft (by simp) (by simp)) rfl m
  | _ => exact straight_spec .inc (by simp) (nft (by simp) (by simp)) rfl m

end Teal
