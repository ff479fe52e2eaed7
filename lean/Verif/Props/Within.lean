import Verif.Spec.Within
import Verif.Props.VmFrames
import Verif.Props.VmStack

/-!
# C126: what the debugger's machine does with frames
-/

namespace Teal.Props

open Teal Teal.Spec

theorem ofFrames_cost {o : Op} (ho : OfFrames o) (version : Nat) (b : VmBranch) : o.costs version b = .ok [] := by
  cases ho <;> rfl

/-- A step to such an instruction, when it is known what its execution does. -/
theorem frames_step {v w : Vm} (hv : Inv v) {k i : Nat} {b b' : VmBranch} {o : Op} (hs : Selected v k b i o) (ho : OfFrames o)
    (hstep : v.step = some w) (hb' : w.branches[k]? = some b') (hpaid : 1 ≤ b.budget) {R : List VmValue → List VmValue → Prop}
    (hx : (∃ m, v.executeOp o (v.mach b o 1) = .ok () m ∧ R b.stack m.br.stack) ∨
      ((¬ ∃ s', R b.stack s') ∧ ∃ e m, v.executeOp o (v.mach b o 1) = .panic e m)) :
    (w.error ≠ none ↔ ¬ ∃ s', R b.stack s') ∧ (w.error = none → R b.stack b'.stack) := by
  have hcost := ofFrames_cost ho v.version b
  have hone : ∀ c, CostIs v.version b o c → c = 1 := by
    intro c hc
    unfold CostIs at hc
    rw [hcost] at hc
    rcases hc with ⟨-, h⟩ | h
    · exact h
    · cases h
  rcases selected_step hv hs hstep hb' with ⟨-, e, h2⟩ | ⟨-, -, c, hc, hlt⟩ | ⟨c, e, m, hc, h1, h2⟩ | ⟨c, m, hc, h1, h2, h3, -⟩
  · rw [hcost] at h2; cases h2
  · rw [hone c hc] at hlt; omega
  · rw [hone c hc] at h2
    rcases hx with ⟨m', h4, -⟩ | ⟨h4, -⟩
    · rw [h2] at h4; cases h4
    · exact ⟨⟨fun _ => h4, fun _ => h1⟩, fun h => absurd h h1⟩
  · rw [hone c hc] at h2
    rcases hx with ⟨m', h4, h5⟩ | ⟨-, e, m', h4⟩
    · rw [h2] at h4
      cases h4
      rw [← h3] at h5
      exact ⟨⟨fun hn => absurd h1 hn, fun hn => absurd ⟨_, h5⟩ hn⟩, fun _ => h5⟩
    · rw [h2] at h4; cases h4

theorem within_exec (v : Vm) {o : Op} (ho : OfFrames o) (m : Mach) {f : VmFrame} {fs : List VmFrame} (hf : m.br.frames = f :: fs) {h a r : Nat}
    (hp : f.p = h % 256) (ha : f.numArgs = a) (hr : f.numReturns = r) :
    (∃ m', v.executeOp o m = .ok () m' ∧ Within h a r o m.br.stack m'.br.stack) ∨
    ((¬ ∃ s', Within h a r o m.br.stack s') ∧ ∃ e m', v.executeOp o m = .panic e m') := by
  have idx : ∀ i : Int, frameIndex f.p i = slotOf h i := by
    intro i
    unfold frameIndex slotOf
    rw [hp]
    omega
  have htop : X.topFrame m = .ok f m := by unfold X.topFrame; rw [hf]
  cases ho with
  | dig i =>
    have hx : v.executeOp (.i8 .frameDig i) m = (X.itemAt (slotOf h i) >>= fun v => X.push v >>= fun _ => X.incLine) m := by
      show (X.topFrame >>= fun f => X.itemAt (frameIndex f.p i) >>= fun v => X.push v >>= fun _ => X.incLine) m = _
      rw [X.ok_bind htop, idx]
    rw [hx]
    cases hg : m.br.stack.reverse[slotOf h i]? with
    | some x =>
      refine .inl ⟨_, X.ok_bind (show X.itemAt _ m = .ok x m by unfold X.itemAt; rw [hg]), ?_⟩
      exact .dig i x _ hg
    | none =>
      refine .inr ⟨?_, bind_panic ⟨.index, m, by unfold X.itemAt; rw [hg]⟩⟩
      rintro ⟨s', hs'⟩
      generalize m.br.stack = st at hs' hg
      cases hs' with
      | dig _ x _ h1 => rw [hg] at h1; cases h1
  | bury i =>
    have hx : v.executeOp (.i8 .frameBury i) m = (X.pop .any >>= fun v => X.replace (slotOf h i) v >>= fun _ => X.incLine) m := by
      show (X.topFrame >>= fun f => X.pop .any >>= fun v => X.replace (frameIndex f.p i) v >>= fun _ => X.incLine) m = _
      rw [X.ok_bind htop, idx]
    rw [hx]
    cases hst : m.br.stack with
    | nil =>
      refine .inr ⟨?_, bind_panic (pop_panic (by rw [hst]; simp [FitsTop]))⟩
      rintro ⟨s', hs'⟩
      cases hs'
    | cons x s =>
      rw [X.ok_bind (pop_ok hst (.inl rfl))]
      by_cases hlt : slotOf h i < s.length
      · have e : X.replace (slotOf h i) x (m.onStack s) = .ok () (m.onStack (s.reverse.set (slotOf h i) x).reverse) := by
          unfold X.replace
          rw [if_pos (show slotOf h i < (m.onStack s).br.stack.length from hlt)]; rfl
        exact .inl ⟨_, X.ok_bind e, .bury i x s hlt⟩
      · refine .inr ⟨?_, bind_panic ⟨.index, m.onStack s, ?_⟩⟩
        · rintro ⟨s', hs'⟩
          cases hs' with
          | bury _ _ _ h1 => exact hlt h1
        · unfold X.replace
          rw [if_neg (show ¬ slotOf h i < (m.onStack s).br.stack.length from hlt)]
  | proto a' r' =>
    have e : v.executeOp (.u8u8 .proto a' r') m =
        .ok () { m with br := ({ m.br with frames := { f with numArgs := a', numReturns := r' } :: fs } : VmBranch).incLine } := by
      show (X.prepare a' r' >>= fun _ => X.incLine) m = _
      rw [X.ok_bind (show X.prepare a' r' m = .ok () { m with br := { m.br with frames := { f with numArgs := a', numReturns := r' } :: fs } } by
        unfold X.prepare; rw [hf])]
      rfl
    exact .inl ⟨_, e, .proto a' r' _⟩
  | ret =>
    have hx : v.executeOp (.plain .retsub) m = X.retsub m := rfl
    rw [hx]
    unfold X.retsub
    rw [hf]
    dsimp only
    rw [ha, hr]
    by_cases h1 : r ≤ m.br.stack.length
    · rw [X.ok_bind (popN_ok r m h1)]
      by_cases h2 : a ≤ (m.br.stack.drop r).length
      · rw [X.ok_bind (popN_ok a (m.onStack (m.br.stack.drop r)) h2), X.ok_bind (pushAll_ok _ _)]
        refine .inl ⟨_, rfl, ?_⟩
        have e : m.br.stack = m.br.stack.take r ++ (m.br.stack.drop r).take a ++ (m.br.stack.drop r).drop a := by
          rw [List.append_assoc, List.take_append_drop, List.take_append_drop]
        have : Within h a r (.plain .retsub) _ _ := Within.ret (m.br.stack.take r) ((m.br.stack.drop r).take a) ((m.br.stack.drop r).drop a)
          (List.length_take_of_le h1) (List.length_take_of_le h2)
        rw [← e] at this
        simpa [Mach.onStack] using this
      · refine .inr ⟨?_, bind_panic (popN_panic a (m.onStack (m.br.stack.drop r)) (by simpa [Mach.onStack] using h2))⟩
        rintro ⟨s', hs'⟩
        generalize m.br.stack = st at hs' h1 h2
        cases hs' with
        | ret rs as s g1 g2 => simp at h2; omega
    · refine .inr ⟨?_, bind_panic (popN_panic r m (by omega))⟩
      rintro ⟨s', hs'⟩
      generalize m.br.stack = st at hs' h1
      cases hs' with
      | ret rs as s g1 g2 => simp at h1; omega

theorem outside_exec (v : Vm) {o : Op} (ho : OfFrames o) (m : Mach) (hf : m.br.frames = []) :
    (∃ m', v.executeOp o m = .ok () m' ∧ Outside o m.br.stack m'.br.stack) ∨
    ((¬ ∃ s', Outside o m.br.stack s') ∧ ∃ e m', v.executeOp o m = .panic e m') := by
  have htop : X.topFrame m = .panic .index m := by unfold X.topFrame; rw [hf]
  cases ho with
  | dig i => exact .inr ⟨(fun ⟨s', h⟩ => by cases h), bind_panic ⟨_, _, htop⟩⟩
  | bury i => exact .inr ⟨(fun ⟨s', h⟩ => by cases h), bind_panic ⟨_, _, htop⟩⟩
  | proto a r =>
    refine .inr ⟨(fun ⟨s', h⟩ => by cases h), bind_panic ⟨.index, m, ?_⟩⟩
    unfold X.prepare; rw [hf]
  | ret =>
    refine .inl ⟨{ m with br := m.br.incLine }, ?_, .ret _⟩
    show X.retsub m = _
    unfold X.retsub
    rw [hf]; rfl

/-- **C126** In a subroutine the instructions that have to do with frames fail exactly if there is nothing they could do,
and otherwise they do that. -/
theorem C126 {l : List Op} {version : Nat} {v w u : Vm} (h : Session l version v) {k i j a r : Nat} {b b' b'' : VmBranch}
    {t : Bytes} {body : List Op} {o : Op} (hb : v.branches[k]? = some b) (hi : b.line = some i)
    (hcall : At l i (.branch .callsub t)) (hc : Continues v w) (hs : Selected w k b' j o) (ho : OfFrames o)
    (htr : b'.trace = b.trace ++ .branch .callsub t :: body) (hbody : Declared body a r) (hpaid : 1 ≤ b'.budget)
    (hstep : w.step = some u) (hb'' : u.branches[k]? = some b'') :
    (u.error ≠ none ↔ ¬ ∃ s', Within b.stack.length a r o b'.stack s') ∧
    (u.error = none → Within b.stack.length a r o b'.stack b''.stack) := by
  have hm : body.foldl frameStep (some (0, 0, 0)) = some (0, a, r) := by
    cases hbody with
    | nothing _ h => exact noProto_frames h (0, 0)
    | proto pre body a r h1 h2 =>
      obtain ⟨c, h3, -⟩ := balanced_frames h1 0 (0, 0)
      rw [List.foldl_append, h3, List.foldl_cons]
      exact noProto_frames h2 (a, r)
  obtain ⟨f, hf, hp, h1, h2⟩ := frame_of h hb hi hcall hc hs.get htr hm
  have hv := session_inv (continues_session h hc)
  exact frames_step hv hs ho hstep hb'' hpaid (within_exec w ho (w.mach b' o 1) (f := f) (fs := b.frames) hf hp h1 h2)

/-- **C126** On a branch that is in no call they fail, except for `retsub`, which leaves the stack alone. -/
theorem C126_outside {l : List Op} {version : Nat} {v w : Vm} (h : Session l version v) {k i : Nat} {b b' : VmBranch} {o : Op}
    (hs : Selected v k b i o) (ho : OfFrames o) (hn : callsOf b = []) (hpaid : 1 ≤ b.budget) (hstep : v.step = some w)
    (hb' : w.branches[k]? = some b') :
    (w.error ≠ none ↔ ¬ ∃ s', Outside o b.stack s') ∧ (w.error = none → Outside o b.stack b'.stack) := by
  have hf : b.frames = [] := by
    unfold callsOf at hn
    simpa using hn
  exact frames_step (session_inv h) hs ho hstep hb' hpaid (outside_exec v ho (v.mach b o 1) hf)

/-- `retsub` after `proto 1 1` with a value too many: the value below the result is taken for the argument. -/
example : ∃ v w b b', Session [.int 5, .branch .callsub b!"f", .plain .err, .label b!"f", .u8u8 .proto 1 1, .int 7, .int 8, .plain .retsub] 8 v ∧
    v.branches[0]? = some b ∧ b.line = some 1 ∧ Continues v w ∧ Selected w 0 b' 7 (.plain .retsub) ∧ 1 ≤ b'.budget ∧
    b'.trace = b.trace ++ .branch .callsub b!"f" :: [.u8u8 .proto 1 1, .int 7, .int 8] ∧
    b'.stack = [⟨.uint64, .uint 8⟩, ⟨.uint64, .uint 7⟩, ⟨.uint64, .uint 5⟩] ∧
    Within b.stack.length 1 1 (.plain .retsub) b'.stack [⟨.uint64, .uint 8⟩, ⟨.uint64, .uint 5⟩] := by
  have h : ((stages [.int 5, .branch .callsub b!"f", .plain .err, .label b!"f", .u8u8 .proto 1 1, .int 7, .int 8, .plain .retsub]
      [none] [none, none, none, none]).map fun (v, w, b, b') =>
        decide (b.line = some 1 ∧ w.branch = some 0 ∧ b'.line = some 7 ∧ w.listing[7]? = some (.plain .retsub) ∧
        b'.trace = b.trace ++ .branch .callsub b!"f" :: [.u8u8 .proto 1 1, .int 7, .int 8] ∧ 1 ≤ b'.budget ∧
        b'.stack = [⟨.uint64, .uint 8⟩, ⟨.uint64, .uint 7⟩, ⟨.uint64, .uint 5⟩])) = some true := by decide +kernel
  obtain ⟨⟨v, w, b, b'⟩, hs, hd⟩ := Option.map_eq_some_iff.1 h
  obtain ⟨h1, h2, h3, h4, h5, h6, h7⟩ := of_decide_eq_true hd
  obtain ⟨g1, g2, g3, g4⟩ := stages_spec hs
  refine ⟨v, w, b, b', g1, g3, h1, g2, ⟨h2, g4, h3, h4⟩, h6, h5, h7, ?_⟩
  rw [h7]
  exact .ret [⟨.uint64, .uint 8⟩] [⟨.uint64, .uint 7⟩] [⟨.uint64, .uint 5⟩] rfl rfl
example : Declared [.u8u8 .proto 1 1, .int 7, .int 8] 1 1 :=
  .proto [] _ 1 1 .nil (.op _ _ (by simp) (by simp) (by simp) (.op _ _ (by simp) (by simp) (by simp) .nil))
/-- `frame_dig -1` on a stack of 402 values: slot 145. -/
example : slotOf 402 (-1) = 145 := by decide
/-- `frame_dig` outside of subroutines. -/
example : outcome [.int 1, .i8 .frameDig 0] 8 1 = some (.i8 .frameDig 0, true, [⟨.uint64, .uint 1⟩], [⟨.uint64, .uint 1⟩]) := by decide +kernel

end Teal.Props
