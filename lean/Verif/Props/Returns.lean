import Verif.Props.VmFrames
import Verif.Lemmas.Real
import Verif.Spec.Wrapped

/-!
# C62, C63: what access to a frame and the return from a subroutine do to the stack, in all cases
-/

namespace Teal
open Teal.Spec

/-- `retsub` with a frame. -/
theorem retsub_runs {m : Mach} {f : VmFrame} {fs : List VmFrame} (hf : m.br.frames = f :: fs) :
    (f.numArgs + f.numReturns ≤ m.br.stack.length ∧ ∃ m', X.retsub m = .ok () m' ∧
      m'.br.stack = m.br.stack.take f.numReturns ++ m.br.stack.drop (f.numReturns + f.numArgs)) ∨
    (m.br.stack.length < f.numArgs + f.numReturns ∧ ∃ e m', X.retsub m = .panic e m') := by
  unfold X.retsub
  rw [hf]
  dsimp only
  by_cases h1 : f.numReturns ≤ m.br.stack.length
  · rw [X.ok_bind (popN_ok _ _ h1)]
    by_cases h2 : f.numArgs + f.numReturns ≤ m.br.stack.length
    · refine .inl ⟨h2, ?_⟩
      rw [X.ok_bind (popN_ok _ _ (by
        show _ ≤ (List.drop _ _).length
        rw [List.length_drop]; omega)), X.ok_bind (pushAll_ok _ _)]
      refine ⟨_, rfl, ?_⟩
      simp [Mach.onStack]
    · refine .inr ⟨by omega, ?_⟩
      obtain ⟨e, m', h⟩ := popN_panic f.numArgs (m.onStack (m.br.stack.drop f.numReturns)) (by
        show (List.drop _ _).length < _
        rw [List.length_drop]; omega)
      exact ⟨e, m', by rw [X.bind_apply, h]⟩
  · obtain ⟨e, m', h⟩ := popN_panic f.numReturns m (by omega)
    exact .inr ⟨by omega, e, m', by rw [X.bind_apply, h]⟩

/-- `frame_dig` with a frame. -/
theorem frameDig_runs {m : Mach} {f : VmFrame} {fs : List VmFrame} (i : Int) (hf : m.br.frames = f :: fs) :
    (∃ x, m.br.stack.reverse[frameIndex f.p i]? = some x ∧ ∃ m', I8Op.execute i .frameDig m = .ok () m' ∧ m'.br.stack = x :: m.br.stack) ∨
    (m.br.stack.reverse[frameIndex f.p i]? = none ∧ ∃ e m', I8Op.execute i .frameDig m = .panic e m') := by
  have e : I8Op.execute i .frameDig m =
    (X.topFrame >>= fun f => X.itemAt (frameIndex f.p i) >>= fun v => X.push v >>= fun _ => X.incLine) m := rfl
  rw [e, X.ok_bind (show X.topFrame m = .ok f m by unfold X.topFrame; rw [hf])]
  cases h : m.br.stack.reverse[frameIndex f.p i]? with
  | some x =>
    refine .inl ⟨x, rfl, ?_⟩
    rw [X.ok_bind (show X.itemAt _ m = .ok x m by unfold X.itemAt; rw [h]), X.ok_bind (push_ok _ _)]
    exact ⟨_, rfl, rfl⟩
  | none =>
    refine .inr ⟨rfl, .index, m, ?_⟩
    rw [X.bind_apply, show X.itemAt _ m = .panic .index m by unfold X.itemAt; rw [h]]

/-- `frame_bury` with a frame. -/
theorem frameBury_runs {m : Mach} {f : VmFrame} {fs : List VmFrame} (i : Int) (hf : m.br.frames = f :: fs) :
    (∃ a s, m.br.stack = a :: s ∧ frameIndex f.p i < s.length ∧ ∃ m', I8Op.execute i .frameBury m = .ok () m' ∧
      m'.br.stack = (s.reverse.set (frameIndex f.p i) a).reverse) ∨
    ((∀ a s, m.br.stack = a :: s → s.length ≤ frameIndex f.p i) ∧ ∃ e m', I8Op.execute i .frameBury m = .panic e m') := by
  have e : I8Op.execute i .frameBury m =
    (X.topFrame >>= fun f => X.pop .any >>= fun v => X.replace (frameIndex f.p i) v >>= fun _ => X.incLine) m := rfl
  rw [e, X.ok_bind (show X.topFrame m = .ok f m by unfold X.topFrame; rw [hf])]
  cases hs : m.br.stack with
  | nil =>
    refine .inr ⟨by simp, .emptyStack .any, m, ?_⟩
    rw [X.bind_apply, show X.pop .any m = .panic (.emptyStack .any) m by unfold X.pop; rw [hs]]
  | cons a s =>
    rw [X.ok_bind (pop_ok hs (.inl rfl))]
    by_cases h : frameIndex f.p i < s.length
    · refine .inl ⟨a, s, rfl, h, ?_⟩
      have e : X.replace (frameIndex f.p i) a (m.onStack s) = .ok () (m.onStack (s.reverse.set (frameIndex f.p i) a).reverse) := by
        unfold X.replace
        rw [if_pos (show _ < (m.onStack s).br.stack.length from h)]; rfl
      rw [X.ok_bind e]
      exact ⟨_, rfl, rfl⟩
    · refine .inr ⟨?_, .index, m.onStack s, ?_⟩
      · intro a' s' h'; cases h'; omega
      · rw [X.bind_apply, show X.replace (frameIndex f.p i) a (m.onStack s) = .panic .index (m.onStack s) by
          unfold X.replace
          rw [if_neg (show ¬ _ < (m.onStack s).br.stack.length from h)]]

end Teal

namespace Teal.Props
open Teal.Spec

/-- **C62** (exactly).  On the branch that called a subroutine, `frame_dig` and `frame_bury` access the slot counted
from the height of the stack at the call modulo 256, and fail exactly if there is no such slot. -/
theorem C62_exact {l : List Op} {version : Nat} {v w u : Vm} (h : Session l version v) {k i j : Nat} {b b' b'' : VmBranch}
    {t : Bytes} {mid : List Op} {o : Op} {x : Int} (hb : v.branches[k]? = some b) (hi : b.line = some i)
    (ho : At l i (.branch .callsub t)) (hc : Continues v w) (hs : Selected w k b' j o) (hx : o = .i8 .frameDig x ∨ o = .i8 .frameBury x)
    (htr : b'.trace = b.trace ++ .branch .callsub t :: mid) (hmid : Balanced mid) (hbudget : 1 ≤ b'.budget)
    (hu : w.step = some u) (hb'' : u.branches[k]? = some b'') :
    (u.error = none → WrappedAccess b.stack.length o b'.stack b''.stack) ∧
    (u.error ≠ none → ∀ stack', ¬ WrappedAccess b.stack.length o b'.stack stack') := by
  obtain ⟨⟨a, r⟩, hm, -⟩ := balanced_frames hmid 0 (0, 0)
  obtain ⟨f, hf, hp, -⟩ := frame_of h hb hi ho hc hs.get htr hm
  have hv := session_inv (continues_session h hc)
  have hidx : (frameIndex f.p x : Int) = ((b.stack.length : Int) + x) % 256 := by
    unfold frameIndex
    rw [hp]
    omega
  have hone : ∀ c, CostIs w.version b' o c → c = 1 := by
    rintro c (⟨-, h⟩ | h)
    · exact h
    · rcases hx with rfl | rfl <;> cases h
  rcases selected_step hv hs hu hb'' with ⟨-, e, he⟩ | ⟨-, -, c, hc1, hc2⟩ | ⟨c, e, m, -, h1, h2⟩ | ⟨c, m, -, h1, h2, h3, -⟩
  · rcases hx with rfl | rfl <;> cases he
  · have := hone c hc1; omega
  · refine ⟨fun e => absurd e h1, fun _ stack' hw => ?_⟩
    rcases hx with rfl | rfl
    · rcases frameDig_runs x (m := w.mach b' (.i8 .frameDig x) c) hf with ⟨y, -, m', g1, -⟩ | ⟨g1, -⟩
      · rw [show I8Op.execute x .frameDig _ = _ from h2] at g1; cases g1
      · generalize hst : b'.stack = st at hw
        cases hw with
        | dig _ slot y _ e1 e2 =>
          have : frameIndex f.p x = slot := by omega
          rw [show (w.mach b' (.i8 .frameDig x) c).br.stack = b'.stack from rfl, hst, this, e2] at g1
          cases g1
    · rcases frameBury_runs x (m := w.mach b' (.i8 .frameBury x) c) hf with ⟨y, s, -, -, m', g1, -⟩ | ⟨g1, -⟩
      · rw [show I8Op.execute x .frameBury _ = _ from h2] at g1; cases g1
      · generalize hst : b'.stack = st at hw
        cases hw with
        | bury _ slot y s e1 e2 =>
          have := g1 y s hst
          omega
  · refine ⟨fun _ => ?_, fun e => absurd h1 e⟩
    rw [h3]
    rcases hx with rfl | rfl
    · rcases frameDig_runs x (m := w.mach b' (.i8 .frameDig x) c) hf with ⟨y, g0, m', g1, g2⟩ | ⟨-, e, m', g1⟩
      · rw [show I8Op.execute x .frameDig _ = _ from h2] at g1; cases g1
        rw [g2]
        exact .dig x _ y _ hidx g0
      · rw [show I8Op.execute x .frameDig _ = _ from h2] at g1; cases g1
    · rcases frameBury_runs x (m := w.mach b' (.i8 .frameBury x) c) hf with ⟨y, s, g00, g0, m', g1, g2⟩ | ⟨-, e, m', g1⟩
      · rw [show I8Op.execute x .frameBury _ = _ from h2] at g1; cases g1
        rw [g2, show b'.stack = y :: s from g00]
        exact .bury x _ y s hidx g0
      · rw [show I8Op.execute x .frameBury _ = _ from h2] at g1; cases g1

/-- The hypotheses hold on the high stack of `C62_false`: `frame_dig -1` behind a call on a stack of 402 values reads
slot 145. -/
example : ∃ (l : List Op) (v w u : Vm) (b b' b'' : VmBranch), Session l 8 v ∧ v.branches[0]? = some b ∧ b.line = some 4 ∧
    At l 4 (.branch .callsub b!"f") ∧ Continues v w ∧ Selected w 0 b' 7 (.i8 .frameDig (-1)) ∧
    b'.trace = b.trace ++ .branch .callsub b!"f" :: [] ∧ Balanced [] ∧ 1 ≤ b'.budget ∧ w.step = some u ∧
    u.branches[0]? = some b'' ∧ u.error = none ∧ b.stack.length = 402 ∧ b'.stack.reverse[145]? = b''.stack.head? := by
  have h : ((stages [.int 5, .u8 .dupn 200, .u8 .dupn 200, .int 9, .branch .callsub b!"f", .plain .err, .label b!"f", .i8 .frameDig (-1)]
      [none, none, none, none] [none]).bind fun (v, w, b, b') => w.step.bind fun u => u.branches[0]?.map fun b'' =>
        decide (b.line = some 4 ∧ w.branch = some 0 ∧ b'.line = some 7 ∧ w.listing[7]? = some (.i8 .frameDig (-1)) ∧
        b'.trace = b.trace ++ .branch .callsub b!"f" :: [] ∧ 1 ≤ b'.budget ∧ u.error = none ∧ b.stack.length = 402 ∧
        b'.stack.reverse[145]? = b''.stack.head?)) = some true := by decide +kernel
  obtain ⟨⟨v, w, b, b'⟩, hs, h⟩ := Option.bind_eq_some_iff.1 h
  obtain ⟨u, hu, h⟩ := Option.bind_eq_some_iff.1 h
  obtain ⟨b'', hb'', hd⟩ := Option.map_eq_some_iff.1 h
  obtain ⟨h1, h2, h3, h4, h5, h6, h7, h8, h9⟩ := of_decide_eq_true hd
  obtain ⟨g1, g2, g3, g4⟩ := stages_spec hs
  exact ⟨_, v, w, u, b, b', b'', g1, g3, h1, rfl, g2, ⟨h2, g4, h3, h4⟩, h5, .nil, h6, hu, hb'', h7, h8, h9⟩

/-- **C63** (exactly).  In a subroutine that began with `proto a r`, `retsub` keeps the highest `r` values of the stack
and removes the `a` values below them, whatever they are; it fails exactly if there are fewer than `a + r`. -/
theorem C63_exact {l : List Op} {version : Nat} {v w u : Vm} (h : Session l version v) {k i j a r : Nat} {b b' b'' : VmBranch}
    {t : Bytes} {body : List Op} (hb : v.branches[k]? = some b) (hi : b.line = some i)
    (ho : At l i (.branch .callsub t)) (hc : Continues v w) (hs : Selected w k b' j (.plain .retsub))
    (htr : b'.trace = b.trace ++ .branch .callsub t :: .u8u8 .proto a r :: body) (hbody : NoProto body)
    (hbudget : 1 ≤ b'.budget) (hu : w.step = some u) (hb'' : u.branches[k]? = some b'') :
    (u.error = none ↔ a + r ≤ b'.stack.length) ∧
    (u.error = none → b''.stack = b'.stack.take r ++ b'.stack.drop (r + a)) := by
  have hm : (Op.u8u8 .proto a r :: body).foldl frameStep (some (0, 0, 0)) = some (0, a, r) := by
    rw [List.foldl_cons]
    exact noProto_frames hbody (a, r)
  obtain ⟨f, hf, -, h1, h2⟩ := frame_of h hb hi ho hc hs.get htr hm
  subst h1 h2
  have hv := session_inv (continues_session h hc)
  have hone : ∀ c, CostIs w.version b' (.plain .retsub) c → c = 1 := by
    rintro c (⟨-, h⟩ | h)
    · exact h
    · cases h
  have hrun := fun c => retsub_runs (m := w.mach b' (.plain .retsub) c) (f := f) (fs := b.frames) hf
  have hex : ∀ c, w.executeOp (.plain .retsub) (w.mach b' (.plain .retsub) c) = X.retsub (w.mach b' (.plain .retsub) c) := fun _ => rfl
  rcases selected_step hv hs hu hb'' with ⟨-, e, he⟩ | ⟨-, -, c, hc1, hc2⟩ | ⟨c, e, m, -, h1, h2⟩ | ⟨c, m, -, h1, h2, h3, -⟩
  · cases he
  · have := hone c hc1; omega
  · rw [hex] at h2
    rcases hrun c with ⟨-, m', g1, -⟩ | ⟨g1, -⟩
    · rw [h2] at g1; cases g1
    · have g1 : b'.stack.length < f.numArgs + f.numReturns := g1
      exact ⟨⟨fun e => absurd e h1, fun e => by omega⟩, fun e => absurd e h1⟩
  · rw [hex] at h2
    rcases hrun c with ⟨g0, m', g1, g2⟩ | ⟨-, e, m', g1⟩
    · rw [h2] at g1; cases g1
      exact ⟨⟨fun _ => g0, fun _ => h1⟩, fun _ => by rw [h3]; exact g2⟩
    · rw [h2] at g1; cases g1

/-- The hypotheses hold with a local value between the argument and the result: the local value is removed, the
argument stays. -/
example : ∃ (l : List Op) (v w u : Vm) (b b' b'' : VmBranch), Session l 8 v ∧ v.branches[0]? = some b ∧ b.line = some 1 ∧
    At l 1 (.branch .callsub b!"f") ∧ Continues v w ∧ Selected w 0 b' 7 (.plain .retsub) ∧
    b'.trace = b.trace ++ .branch .callsub b!"f" :: .u8u8 .proto 1 1 :: [.int 7, .int 8] ∧ NoProto [.int 7, .int 8] ∧
    1 ≤ b'.budget ∧ w.step = some u ∧ u.branches[0]? = some b'' ∧ b''.stack = [⟨.uint64, .uint 8⟩, ⟨.uint64, .uint 5⟩] := by
  have h : ((stages [.int 5, .branch .callsub b!"f", .plain .err, .label b!"f", .u8u8 .proto 1 1, .int 7, .int 8, .plain .retsub]
      [none] [none, none, none, none]).bind fun (v, w, b, b') => w.step.bind fun u => u.branches[0]?.map fun b'' =>
        decide (b.line = some 1 ∧ w.branch = some 0 ∧ b'.line = some 7 ∧ w.listing[7]? = some (.plain .retsub) ∧
        b'.trace = b.trace ++ .branch .callsub b!"f" :: .u8u8 .proto 1 1 :: [.int 7, .int 8] ∧
        1 ≤ b'.budget ∧ b''.stack = [⟨.uint64, .uint 8⟩, ⟨.uint64, .uint 5⟩])) = some true := by decide +kernel
  obtain ⟨⟨v, w, b, b'⟩, hs, h⟩ := Option.bind_eq_some_iff.1 h
  obtain ⟨u, hu, h⟩ := Option.bind_eq_some_iff.1 h
  obtain ⟨b'', hb'', hd⟩ := Option.map_eq_some_iff.1 h
  obtain ⟨h1, h2, h3, h4, h5, h6, h7⟩ := of_decide_eq_true hd
  obtain ⟨g1, g2, g3, g4⟩ := stages_spec hs
  exact ⟨_, v, w, u, b, b', b'', g1, g3, h1, rfl, g2, ⟨h2, g4, h3, h4⟩, h5,
    .op _ _ (by simp) (by simp) (by simp) (.op _ _ (by simp) (by simp) (by simp) .nil), h6, hu, hb'', h7⟩

end Teal.Props
