import Verif.Lemmas.VmHist

/-!
# What an instruction does depends on its branch only

Apart from `load`, no instruction looks at anything but the executing branch.
-/

namespace Teal
open Teal.Spec

/-- The same branch, in surroundings that may differ. -/
def SameBr (m1 m2 : Mach) : Prop := m1.br = m2.br ∧ m1.scratch.length = m2.scratch.length

/-- The same outcome for the branch. -/
def SameRes {α : Type} : XRes α → XRes α → Prop
  | .ok a m1, .ok b m2 => a = b ∧ SameBr m1 m2
  | .panic e m1, .panic e' m2 => e = e' ∧ SameBr m1 m2
  | .hang, .hang => True
  | _, _ => False

/-- `x` and `y` do the same to the branch. -/
def Par {α : Type} (x y : X α) : Prop := ∀ m1 m2, SameBr m1 m2 → SameRes (x m1) (y m2)

theorem Par.bind {α β : Type} {x y : X α} {f g : α → X β} (h : Par x y) (hf : ∀ a, Par (f a) (g a)) :
    Par (x >>= f) (y >>= g) := by
  intro m1 m2 hm
  rw [X.bind_apply, X.bind_apply]
  have := h m1 m2 hm
  cases hx : x m1 <;> cases hy : y m2 <;> rw [hx, hy] at this
  case ok.ok a n1 b n2 =>
    obtain ⟨rfl, h2⟩ := this
    exact hf a n1 n2 h2
  all_goals first | exact this | exact False.elim this

theorem Par.pure {α : Type} (a : α) : Par (pure a : X α) (pure a) := fun _ _ h => ⟨rfl, h⟩

theorem Par.throw {α : Type} (e : VmErr) : Par (X.throw e : X α) (X.throw e) := fun _ _ h => ⟨rfl, h⟩

theorem Par.loop : Par X.loop X.loop := fun _ _ _ => trivial

theorem Par.modifyBr (f : VmBranch → VmBranch) : Par (X.modifyBr f) (X.modifyBr f) :=
  fun _ _ h => ⟨rfl, by rw [h.1], h.2⟩

theorem Par.incLine : Par X.incLine X.incLine := Par.modifyBr _

theorem Par.push (v : VmValue) : Par (X.push v) (X.push v) := Par.modifyBr _

theorem Par.pop (t : StackType) : Par (X.pop t) (X.pop t) := by
  intro m1 m2 h
  unfold X.pop
  rw [← h.1]
  split
  · exact ⟨rfl, h⟩
  · split
    · exact ⟨rfl, rfl, h.2⟩
    · exact ⟨rfl, h⟩

theorem Par.popN (n : Nat) : Par (X.popN n) (X.popN n) := by
  induction n with
  | zero => exact Par.pure _
  | succ n ih =>
    unfold X.popN
    exact (Par.pop _).bind fun v => ih.bind fun vs => Par.pure _

theorem Par.pops (ts : List StackType) : Par (X.pops ts) (X.pops ts) := by
  induction ts with
  | nil => exact Par.pure _
  | cons t ts ih =>
    unfold X.pops
    exact (Par.pop t).bind fun _ => ih

theorem Par.pushes (ts : List StackType) : Par (X.pushes ts) (X.pushes ts) := by
  induction ts with
  | nil => exact Par.pure _
  | cons t ts ih =>
    unfold X.pushes
    exact (Par.push _).bind fun _ => ih

theorem Par.pushAll (vs : List VmValue) : Par (X.pushAll vs) (X.pushAll vs) := by
  induction vs with
  | nil => exact Par.pure _
  | cons v vs ih =>
    unfold X.pushAll
    exact (Par.push _).bind fun _ => ih

theorem Par.simple (ins outs : List StackType) : Par (X.simple ins outs) (X.simple ins outs) :=
  (Par.pops _).bind fun _ => (Par.pushes _).bind fun _ => Par.incLine

theorem Par.itemAt (n : Nat) : Par (X.itemAt n) (X.itemAt n) := by
  intro m1 m2 h
  unfold X.itemAt
  rw [← h.1]
  split <;> exact ⟨rfl, h⟩

theorem Par.replace (n : Nat) (v : VmValue) : Par (X.replace n v) (X.replace n v) := by
  intro m1 m2 h
  unfold X.replace
  rw [← h.1]
  split
  · exact ⟨rfl, rfl, h.2⟩
  · exact ⟨rfl, h⟩

theorem Par.store (i v : VmValue) : Par (X.store i v) (X.store i v) := by
  intro m1 m2 h
  unfold X.store
  rw [← h.2]
  split
  · split
    · exact ⟨rfl, h.1, by simp [h.2]⟩
    · exact ⟨rfl, h⟩
  · exact ⟨rfl, h⟩

theorem Par.topFrame : Par X.topFrame X.topFrame := by
  intro m1 m2 h
  unfold X.topFrame
  rw [← h.1]
  split <;> exact ⟨rfl, h⟩

theorem Par.prepare (a r : Nat) : Par (X.prepare a r) (X.prepare a r) := by
  intro m1 m2 h
  unfold X.prepare
  rw [← h.1]
  split
  · exact ⟨rfl, h⟩
  · exact ⟨rfl, rfl, h.2⟩

theorem Par.fieldType (g : FieldGroup) (f : Nat) : Par (X.fieldType g f) (X.fieldType g f) := by
  unfold X.fieldType
  split
  · exact Par.pure _
  · exact Par.throw _

theorem Par.fork (l : List Op) (bps bps' : List Nat) (t : Bytes) : Par (X.fork l bps t) (X.fork l bps' t) :=
  fun _ _ h => ⟨rfl, h⟩

theorem Par.forkAll (l : List Op) (bps bps' : List Nat) (ts : List Bytes) : Par (X.forkAll l bps ts) (X.forkAll l bps' ts) := by
  induction ts with
  | nil => exact Par.pure _
  | cons t ts ih =>
    unfold X.forkAll
    exact (Par.fork _ _ _ _).bind fun _ => ih

theorem Par.retsub : Par X.retsub X.retsub := by
  intro m1 m2 h
  unfold X.retsub
  rw [← h.1]
  split
  · exact Par.incLine m1 m2 h
  · exact ((Par.popN _).bind fun _ => (Par.popN _).bind fun _ => (Par.pushAll _).bind fun _ => Par.modifyBr _) m1 m2 h

theorem Par.plain (k : Plain) : Par (k.execute.getD X.incLine) (k.execute.getD X.incLine) := by
  cases k
  case retsub => exact Par.retsub
  case err => exact Par.modifyBr _
  case returnOp => exact (Par.pops _).bind fun _ => Par.modifyBr _
  case sha256 => exact (Par.pop _).bind fun _ => (Par.push _).bind fun _ => Par.incLine
  case ed25519verify =>
    exact (Par.pop _).bind fun _ => (Par.pop _).bind fun _ => (Par.pop _).bind fun _ => (Par.push _).bind fun _ => Par.incLine
  case stores => exact (Par.pop _).bind fun _ => (Par.pop _).bind fun _ => (Par.store _ _).bind fun _ => Par.incLine
  case dup => exact (Par.pop _).bind fun _ => (Par.pushAll _).bind fun _ => Par.incLine
  case dup2 => exact (Par.pop _).bind fun _ => (Par.pop _).bind fun _ => (Par.pushAll _).bind fun _ => Par.incLine
  case swap => exact (Par.pop _).bind fun _ => (Par.pop _).bind fun _ => (Par.pushAll _).bind fun _ => Par.incLine
  all_goals first | exact Par.simple _ _ | exact Par.incLine

theorem Par.u8 (k : U8Op) (n : Nat) (h : k ≠ .load) : Par (k.execute n) (k.execute n) := by
  cases k
  case load => exact absurd rfl h
  case store => exact (Par.pop _).bind fun _ => (Par.store _ _).bind fun _ => Par.incLine
  case bury => exact (Par.pop _).bind fun _ => (Par.replace _ _).bind fun _ => Par.incLine
  case popn => exact (Par.popN _).bind fun _ => Par.incLine
  case dupn =>
    refine (Par.pop _).bind fun v => ?_
    dsimp only
    split
    · exact Par.loop.bind fun _ => Par.incLine
    · exact (Par.pushAll _).bind fun _ => Par.incLine
  case dig =>
    intro m1 m2 h
    show SameRes ((X.itemAt ((m1.br.stack.length + 255 - n) % 256) >>= fun v => X.push v >>= fun _ => X.incLine) m1)
      ((X.itemAt ((m2.br.stack.length + 255 - n) % 256) >>= fun v => X.push v >>= fun _ => X.incLine) m2)
    rw [← h.1]
    exact ((Par.itemAt _).bind fun _ => (Par.push _).bind fun _ => Par.incLine) m1 m2 h
  case cover =>
    exact (Par.pop _).bind fun _ => (Par.popN _).bind fun _ => (Par.push _).bind fun _ =>
      (Par.pushAll _).bind fun _ => Par.incLine
  case uncover =>
    exact (Par.popN _).bind fun _ => (Par.pop _).bind fun _ => (Par.pushAll _).bind fun _ =>
      (Par.push _).bind fun _ => Par.incLine
  all_goals exact Par.simple _ _

theorem Par.field (k : FieldOp) (f : Nat) : Par (k.execute f) (k.execute f) := by
  cases k
  case itxnField => exact Par.simple _ _
  case ecdsaVerify =>
    exact (Par.pop _).bind fun _ => (Par.pop _).bind fun _ => (Par.pop _).bind fun _ => (Par.pop _).bind fun _ =>
      (Par.pop _).bind fun _ => (Par.push _).bind fun _ => Par.incLine
  all_goals first
    | exact Par.simple _ _
    | exact (Par.fieldType _ _).bind fun _ => (Par.pops _).bind fun _ => (Par.pushes _).bind fun _ => Par.incLine
    | exact (Par.fieldType _ _).bind fun _ => (Par.pushes _).bind fun _ => Par.incLine
    | exact (Par.pops _).bind fun _ => (Par.fieldType _ _).bind fun _ => (Par.pushes _).bind fun _ => Par.incLine

theorem executeOp_par (v w : Vm) (hl : v.listing = w.listing) {o : Op} (ho : ∀ n, o ≠ .u8 .load n) :
    Par (v.executeOp o) (w.executeOp o) := by
  unfold Vm.executeOp
  rw [hl]
  have ft : ∀ g f, Par (do let t ← X.fieldType g f; X.pushes [t]; X.incLine) (do let t ← X.fieldType g f; X.pushes [t]; X.incLine) :=
    fun g f => (Par.fieldType _ _).bind fun _ => (Par.pushes _).bind fun _ => Par.incLine
  cases o with
  | plain k => exact Par.plain k
  | u8 k n => exact Par.u8 k n fun h => ho n (by rw [h])
  | u8u8 k a r =>
    cases k
    case proto => exact (Par.prepare _ _).bind fun _ => Par.incLine
    all_goals exact Par.simple _ _
  | i8 k i =>
    cases k
    · exact Par.topFrame.bind fun _ => (Par.itemAt _).bind fun _ => (Par.push _).bind fun _ => Par.incLine
    · exact Par.topFrame.bind fun _ => (Par.pop _).bind fun _ => (Par.replace _ _).bind fun _ => Par.incLine
  | field k f => exact Par.field k f
  | fieldIdx k f i =>
    cases k
    · exact ft _ _
    · exact (Par.fieldType _ _).bind fun _ => (Par.pops _).bind fun _ => (Par.pushes _).bind fun _ => Par.incLine
    · exact Par.incLine
  | groupField k t f =>
    cases k
    · exact ft _ _
    · exact ft _ _
    · exact (Par.pops _).bind fun _ => ft _ _
    · exact (Par.pops _).bind fun _ => ft _ _
  | groupFieldIdx k t f i =>
    cases k
    · exact ft _ _
    · exact ft _ _
  | branch k t =>
    cases k
    · exact (Par.pops _).bind fun _ => (Par.fork _ _ _ _).bind fun _ => Par.incLine
    · exact (Par.pops _).bind fun _ => (Par.fork _ _ _ _).bind fun _ => Par.incLine
    · exact (Par.modifyBr _ : Par (X.jump _ t) (X.jump _ t))
    · exact (Par.modifyBr _ : Par (X.call _ t) (X.call _ t))
  | switch ts => exact (Par.pops _).bind fun _ => (Par.forkAll _ _ _ _).bind fun _ => Par.incLine
  | match_ ts =>
    exact (Par.popN _).bind fun _ => (Par.pops _).bind fun _ => (Par.forkAll _ _ _ _).bind fun _ => Par.incLine
  | int v => exact (Par.push _).bind fun _ => Par.incLine
  | byte v => exact (Par.push _).bind fun _ => Par.incLine
  | pushbytes v => exact (Par.push _).bind fun _ => Par.incLine
  | method v => exact (Par.push _).bind fun _ => Par.incLine
  | pushints vs => exact (Par.pushes _).bind fun _ => Par.incLine
  | pushbytess vs => exact (Par.pushAll _).bind fun _ => Par.incLine
  | pushint v => exact Par.simple _ _
  | _ => exact Par.incLine

/-- The lines `skipNops` goes to do not depend on the breakpoints. -/
theorem skipLoop_bps (bps bps' : List Nat) : ∀ (os : List Op) (i : Nat) (b : VmBranch) (t t' : List (Nat × Nat)),
    (skipLoop bps os i b t).1 = (skipLoop bps' os i b t').1 ∧ (skipLoop bps os i b t).2.1 = (skipLoop bps' os i b t').2.1 := by
  intro os
  induction os with
  | nil => intro i b t t'; exact ⟨rfl, rfl⟩
  | cons o os ih =>
    intro i b t t'
    unfold skipLoop
    dsimp only
    split
    · exact ih _ _ _ _
    · exact ⟨rfl, rfl⟩

theorem skipNops_bps (l : List Op) (bps bps' : List Nat) (b : VmBranch) :
    (b.skipNops l bps).2.1 = (b.skipNops l bps').2.1 := by
  cases h : b.line with
  | none => rw [skipNops_none l bps b h, skipNops_none l bps' b h]
  | some i =>
    unfold VmBranch.skipNops
    rw [h]
    exact (skipLoop_bps bps bps' _ i b [] []).2

/-- One instruction of a branch: the branch after it, before it may be found to be at the end. -/
def Evolves (l : List Op) (version : Nat) (b b' : VmBranch) : Prop :=
  ∃ (v : Vm) (k i : Nat) (o : Op) (c : Int) (m : Mach), Inv v ∧ v.listing = l ∧ v.version = version ∧ Acts v k b i o ∧
    CostIs v.version b o c ∧ v.executeOp o (v.mach b o c) = .ok () m ∧ b' = (m.br.skipNops v.listing v.breakpoints).2.1

/-- The instruction is written down. -/
theorem evolves_appends {l : List Op} {version : Nat} {b b' : VmBranch} (h : Evolves l version b b') : ∃ o, b'.trace = b.trace ++ [o] := by
  obtain ⟨v, k, i, o, c, m, hv, hvl, hvv, ha, hc, hx, rfl⟩ := h
  exact ⟨o, by rw [skipNops_trace, (exec_ok rfl hx).trace]; rfl⟩

theorem evolves_unique {l : List Op} {version : Nat} {b b1 b2 : VmBranch} (hl : ∀ n, .u8 .load n ∉ b1.trace.drop b.trace.length)
    (h1 : Evolves l version b b1) (h2 : Evolves l version b b2) : b1 = b2 := by
  obtain ⟨v, k, i, o, c, m, hv, hvl, hvv, ha, hc, hx, rfl⟩ := h1
  obtain ⟨w, k', i', o', c', m', hw, hwl, hwv, ha', hc', hx', rfl⟩ := h2
  have e := ha'.line
  rw [ha.line] at e; cases e
  have e := ha'.op
  rw [hwl, ← hvl, ha.op] at e; cases e
  rw [hwv, ← hvv] at hc'
  obtain rfl := hc.unique hc'
  have ho : ∀ n, o ≠ .u8 .load n := by
    rintro n rfl
    refine hl n ?_
    rw [skipNops_trace, (exec_ok rfl hx).trace]
    simp [Vm.mach]
  have := executeOp_par v w (hvl.trans hwl.symm) ho (v.mach b o c) (w.mach b o c) ⟨rfl, hv.scratch.trans hw.scratch.symm⟩
  rw [hx, hx'] at this
  rw [this.2.1, hvl, hwl]
  exact skipNops_bps _ _ _ _

/-- `n` instructions of a branch. -/
inductive EvolvesN (l : List Op) (version : Nat) (b : VmBranch) : Nat → VmBranch → Prop
  | zero : EvolvesN l version b 0 b
  | succ {n : Nat} {c d : VmBranch} : EvolvesN l version b n c → Evolves l version c d → EvolvesN l version b (n + 1) d

theorem evolvesN_appends {l : List Op} {version : Nat} {b b' : VmBranch} {n : Nat} (h : EvolvesN l version b n b') :
    ∃ mid, b'.trace = b.trace ++ mid := by
  induction h with
  | zero => exact ⟨[], (List.append_nil _).symm⟩
  | succ _ h ih =>
    obtain ⟨mid, e⟩ := ih
    obtain ⟨o, e'⟩ := evolves_appends h
    exact ⟨mid ++ [o], by rw [e', e, List.append_assoc]⟩

theorem evolvesN_unique {l : List Op} {version : Nat} {b : VmBranch} {n : Nat} : ∀ {b1 b2 : VmBranch},
    (∀ n, .u8 .load n ∉ b1.trace.drop b.trace.length) → EvolvesN l version b n b1 → EvolvesN l version b n b2 → b1 = b2 := by
  induction n with
  | zero => intro b1 b2 _ h1 h2; cases h1; cases h2; rfl
  | succ n ih =>
    intro b1 b2 hl h1 h2
    cases h1 with
    | @succ _ c _ h1 h3 =>
      cases h2 with
      | succ h2 h4 =>
        obtain ⟨mid, e⟩ := evolvesN_appends h1
        obtain ⟨o, e'⟩ := evolves_appends h3
        rw [e', e, List.append_assoc, List.drop_left] at hl
        obtain rfl := ih (by rw [e, List.drop_left]; exact fun n hn => hl n (by simp [hn])) h1 h2
        exact evolves_unique (by rw [e', List.drop_left]; exact fun n hn => hl n (by simp [List.mem_singleton.1 hn])) h3 h4

theorem evolves_trace {l : List Op} {version : Nat} {b b' : VmBranch} (h : Evolves l version b b') :
    b'.trace.length = b.trace.length + 1 := by
  obtain ⟨v, k, i, o, c, m, hv, hvl, hvv, ha, hc, hx, rfl⟩ := h
  rw [skipNops_trace, (exec_ok rfl hx).trace]
  simp [Vm.mach]

theorem evolvesN_trace {l : List Op} {version : Nat} {b : VmBranch} {n : Nat} {b' : VmBranch} (h : EvolvesN l version b n b') :
    b'.trace.length = b.trace.length + n := by
  induction h with
  | zero => rfl
  | succ _ h ih => rw [evolves_trace h, ih]; omega

/-- Along a schedule a branch executes some number of instructions, and may be found to be at the
end or out of budget. -/
theorem continues_evolves {l : List Op} {version : Nat} {v w : Vm} (hv : Session l version v) {k : Nat} {b : VmBranch}
    (hb : v.branches[k]? = some b) (h : Continues v w) : ∀ b', w.branches[k]? = some b' →
      ∃ n c, EvolvesN l version b n c ∧ b' = { c with line := b'.line, name := b'.name } ∧
        ((b'.line = c.line ∧ b'.name = c.name) ∨ b'.line = none) := by
  have hk : k < v.branches.length := (List.getElem?_eq_some_iff.1 hb).1
  have hver : ∀ {u : Vm}, Continues v u → u.version = version := fun hc => (session_listing (continues_session hv hc)).2
  have key : ∀ u, Continues v u → (Inv u ∧ u.listing = l ∧ u.version = version ∧ k < u.branches.length ∧
      ∀ b', u.branches[k]? = some b' → ∃ n c, EvolvesN l version b n c ∧ b' = { c with line := b'.line, name := b'.name } ∧
        ((b'.line = c.line ∧ b'.name = c.name) ∨ b'.line = none)) := by
    have step' : ∀ u u', (Inv u ∧ u.listing = l ∧ u.version = version ∧ k < u.branches.length ∧
      ∀ b', u.branches[k]? = some b' → ∃ n c, EvolvesN l version b n c ∧ b' = { c with line := b'.line, name := b'.name } ∧
        ((b'.line = c.line ∧ b'.name = c.name) ∨ b'.line = none)) → u.step = some u' → u'.error = none →
        (Inv u' ∧ u'.listing = l ∧ u'.version = version ∧ k < u'.branches.length ∧
      ∀ b', u'.branches[k]? = some b' → ∃ n c, EvolvesN l version b n c ∧ b' = { c with line := b'.line, name := b'.name } ∧
        ((b'.line = c.line ∧ b'.name = c.name) ∨ b'.line = none)) := by
      rintro u u' ⟨hu, hul, huv, huk, hp⟩ hs he
      obtain ⟨g1, g2, -⟩ := step_listing hu hs
      refine ⟨inv_step hu hs, g1.trans hul, g2.trans huv, Nat.lt_of_lt_of_le huk (step_length hu hs), fun b' hb' => ?_⟩
      have retire : ∀ {x : VmBranch} {n : Nat}, EvolvesN l version b n x → Retired u.listing x b' →
          ∃ n c, EvolvesN l version b n c ∧ b' = { c with line := b'.line, name := b'.name } ∧
            ((b'.line = c.line ∧ b'.name = c.name) ∨ b'.line = none) := by
        intro x n hx hr
        refine ⟨n, x, hx, hr.same, ?_⟩
        rcases hr with rfl | ⟨_, _, _, rfl⟩
        · exact .inl ⟨rfl, rfl⟩
        · exact .inr rfl
      have hsp := step_spec hu
      rw [hs] at hsp
      generalize hr : some u' = r at hsp
      have old : ∀ {x : VmBranch}, u.branches[k]? = some x → Retired u.listing x b' →
          ∃ n c, EvolvesN l version b n c ∧ b' = { c with line := b'.line, name := b'.name } ∧
            ((b'.line = c.line ∧ b'.name = c.name) ∨ b'.line = none) := by
        intro x hx hr
        obtain ⟨n, c, h1, h2, h3⟩ := hp x hx
        refine ⟨n, c, h1, ?_, ?_⟩
        · rw [hr.same, h2]
        · rcases hr with rfl | ⟨_, _, _, rfl⟩
          · exact h3
          · exact .inr rfl
      have ofStart : u.start.branches[k]? = some b' → ∃ n c, EvolvesN l version b n c ∧ b' = { c with line := b'.line, name := b'.name } ∧
            ((b'.line = c.line ∧ b'.name = c.name) ∨ b'.line = none) := by
        intro hx
        obtain ⟨x, h1, h2⟩ := start_origin hu hx
        exact old h1 h2
      cases hsp with
      | idle _ => cases hr; exact ofStart hb'
      | costErr _ _ => cases hr; cases he
      | @poor k' b0 i o c ha _ _ =>
        cases hr
        rcases getElem?_set_cases hb' with ⟨rfl, rfl⟩ | ⟨-, h⟩
        · obtain ⟨n, c, h1, h2, -⟩ := hp b0 ha.old
          exact ⟨n, c, h1, by rw [h2]; rfl, .inr rfl⟩
        · exact ofStart h
      | hang => cases hr
      | fail _ _ _ _ => cases hr; cases he
      | @done k' b0 i o c m ha hc hle hx =>
        cases hr
        cases finished_origin hu (ha.finished hu hx) hb' with
        | other x _ h1 h2 => exact old h1 h2
        | fork x h1 _ _ => omega
        | self h1 h2 =>
          subst h1
          obtain ⟨n, d, h3, h4, h5⟩ := hp b0 ha.old
          have hd : b0 = d := by
            rcases h5 with ⟨e1, e2⟩ | h5
            · rw [h4, e1, e2]
            · rw [ha.line] at h5; cases h5
          subst hd
          exact retire (h3.succ ⟨u, _, i, o, c, m, hu, hul, huv, ha, hc, hx, rfl⟩) h2
    intro u hc
    induction hc with
    | refl =>
      refine ⟨session_inv hv, (session_listing hv).1, (session_listing hv).2, hk, fun b' hb' => ?_⟩
      rw [hb] at hb'; cases hb'
      exact ⟨0, b, .zero, rfl, .inl ⟨rfl, rfl⟩⟩
    | step _ h1 he ih => exact step' _ _ ih h1 he
    | run _ h1 he ih => exact runs_ok_induct step' h1 ih he
    | switch id hc ih =>
      have hse := Session.switch id (continues_session hv hc)
      refine ⟨session_inv hse, (session_listing hse).1, (session_listing hse).2, ?_⟩
      rw [switch_branches]; exact ih.2.2.2
    | breakpoints lns hc h1 ih =>
      have hse := Session.breakpoints lns (continues_session hv hc) h1
      refine ⟨session_inv hse, (session_listing hse).1, (session_listing hse).2, ?_⟩
      rw [setBreakpoints_branches h1]; exact ih.2.2.2
  exact (key w h).2.2.2.2

end Teal
