import Verif.Lemmas.VmFrames
import Verif.Props.VmFlow

/-!
# C62, C63: the frames of subroutines
-/

namespace Teal.Props
open Teal Teal.Spec

/-- The innermost frame of a branch that called a subroutine and is still in it. -/
theorem frame_of {l : List Op} {version : Nat} {v w : Vm} (h : Session l version v) {k i : Nat} {b b' : VmBranch}
    {t : Bytes} {mid : List Op} {a r : Nat} (hb : v.branches[k]? = some b) (hi : b.line = some i)
    (ho : At l i (.branch .callsub t)) (hc : Continues v w) (hb' : w.branches[k]? = some b')
    (htr : b'.trace = b.trace ++ .branch .callsub t :: mid)
    (hmid : mid.foldl frameStep (some (0, 0, 0)) = some (0, a, r)) :
    ∃ f, b'.frames = f :: b.frames ∧ f.p = b.stack.length % 256 ∧ f.numArgs = a ∧ f.numReturns = r := by
  have key := continues_branch (P := Framed b i t) h (fun b0 h0 => ?_) (List.getElem?_eq_some_iff.1 hb).1 ?_ hc b' hb'
  · rcases key.cases with ⟨h1, -⟩ | ⟨rest, h1, h2⟩
    · rw [h1] at htr
      have := congrArg List.length htr
      simp at this
    · rw [h1] at htr
      have := List.append_cancel_left htr
      simp only [List.cons.injEq, true_and] at this
      subst this
      obtain ⟨pre, f, g1, g2, g3⟩ := h2 0 a r hmid
      have : pre = [] := List.length_eq_zero_iff.1 g2
      subst this
      exact ⟨f, g1, g3⟩
  · rw [hb] at h0; cases h0
    exact ⟨.inl ⟨rfl, rfl, rfl, .inl hi⟩⟩
  · intro u u' hu hul hk hp hs he
    subst hul
    exact framed_step hu ho hk hp hs he

/-- C62: in a subroutine, `frame_dig` and `frame_bury` access the slot counted from the height of the
stack at the call, whatever has been called and returned from since, if it is one of the lowest 256
slots.  Missing: slots above those, where the number wraps around (`C62_false`), and a branch created
inside the subroutine, which has no frame (`C62_fork_false`). -/
theorem C62_partial {l : List Op} {version : Nat} {v w : Vm} (h : Session l version v) {k i j : Nat} {b b' : VmBranch}
    {t : Bytes} {mid : List Op} {o : Op} {stack' : List VmValue} (hb : v.branches[k]? = some b) (hi : b.line = some i)
    (ho : At l i (.branch .callsub t)) (hc : Continues v w) (hs : Selected w k b' j o)
    (htr : b'.trace = b.trace ++ .branch .callsub t :: mid) (hmid : Balanced mid)
    (ha : FrameAccess b.stack.length o b'.stack stack') (hbudget : 1 ≤ b'.budget)
    (hh : ∀ i, o = .i8 .frameDig i ∨ o = .i8 .frameBury i → (b.stack.length : Int) + i < 256) :
    ∃ u b'', w.step = some u ∧ u.error = none ∧ u.branches[k]? = some b'' ∧ b''.stack = stack' := by
  obtain ⟨⟨a, r⟩, hm, -⟩ := balanced_frames hmid 0 (0, 0)
  obtain ⟨f, hf, hp, -⟩ := frame_of h hb hi ho hc hs.get htr hm
  have hw := continues_session h hc
  have hv := session_inv hw
  have idx : ∀ {i : Int} {slot : Nat}, (slot : Int) = b.stack.length + i → slot < 256 → frameIndex f.p i = slot := by
    intro i slot h1 h2
    unfold frameIndex
    rw [hp]
    omega
  generalize hbs : b'.stack = stack at ha
  cases ha with
  | dig i slot x _ h1 h2 =>
    have hlt := hh i (.inl rfl)
    have e := idx h1 (by omega)
    have hx : w.executeOp (.i8 .frameDig i) (w.mach b' (.i8 .frameDig i) 1) =
        .ok () { w.mach b' (.i8 .frameDig i) 1 with br := ((w.mach b' (.i8 .frameDig i) 1).onStack (x :: stack)).br.incLine } := by
      show (X.topFrame >>= fun f => X.itemAt (frameIndex f.p i) >>= fun v => X.push v >>= fun _ => X.incLine) _ = _
      rw [X.ok_bind (show X.topFrame _ = .ok f _ by unfold X.topFrame; rw [show (w.mach b' (.i8 .frameDig i) 1).br.frames = _ from hf])]
      rw [e, X.ok_bind (show X.itemAt slot _ = .ok x _ by
        unfold X.itemAt; rw [show (w.mach b' (.i8 .frameDig i) 1).br.stack = stack from hbs, h2])]
      rw [X.ok_bind (push_ok _ _)]
      rw [show (w.mach b' (.i8 .frameDig i) 1).br.stack = stack from hbs]
      rfl
    exact selected_ok hv hs (.inl ⟨rfl, rfl⟩) hbudget hx
  | bury i slot a s h1 h2 =>
    have hlt := hh i (.inr rfl)
    have e := idx h1 (by omega)
    have hx : w.executeOp (.i8 .frameBury i) (w.mach b' (.i8 .frameBury i) 1) =
        .ok () { w.mach b' (.i8 .frameBury i) 1 with br := ((w.mach b' (.i8 .frameBury i) 1).onStack ((s.reverse.set slot a).reverse)).br.incLine } := by
      show (X.topFrame >>= fun f => X.pop .any >>= fun v => X.replace (frameIndex f.p i) v >>= fun _ => X.incLine) _ = _
      rw [X.ok_bind (show X.topFrame _ = .ok f _ by unfold X.topFrame; rw [show (w.mach b' (.i8 .frameBury i) 1).br.frames = _ from hf])]
      rw [X.ok_bind (pop_ok (m := w.mach b' (.i8 .frameBury i) 1) hbs (.inl rfl)), e]
      have e : X.replace slot a ((w.mach b' (.i8 .frameBury i) 1).onStack s) =
          .ok () ((w.mach b' (.i8 .frameBury i) 1).onStack (s.reverse.set slot a).reverse) := by
        unfold X.replace
        rw [if_pos (show slot < ((w.mach b' (.i8 .frameBury i) 1).onStack s).br.stack.length from h2)]; rfl
      rw [X.ok_bind e]; rfl
    exact selected_ok hv hs (.inl ⟨rfl, rfl⟩) hbudget hx

/-- C63: `retsub` in a subroutine that began with `proto A R` leaves the results in place of the
arguments.  Missing: values that are left between the arguments and the results are not dropped
(`C63_false`). -/
theorem C63_partial {l : List Op} {version : Nat} {v w : Vm} (h : Session l version v) {k i j a r : Nat} {b b' : VmBranch}
    {t : Bytes} {body : List Op} (hb : v.branches[k]? = some b) (hi : b.line = some i)
    (ho : At l i (.branch .callsub t)) (hc : Continues v w) (hs : Selected w k b' j (.plain .retsub))
    (htr : b'.trace = b.trace ++ .branch .callsub t :: .u8u8 .proto a r :: body) (hbody : NoProto body)
    (ha : a ≤ b.stack.length) (hbudget : 1 ≤ b'.budget) (hlen : b'.stack.length = b.stack.length + r) :
    ∃ u b'', w.step = some u ∧ u.error = none ∧ u.branches[k]? = some b'' ∧
      b''.stack = afterReturn b.stack.length a r b'.stack := by
  have hm : (Op.u8u8 .proto a r :: body).foldl frameStep (some (0, 0, 0)) = some (0, a, r) := by
    rw [List.foldl_cons]
    exact noProto_frames hbody (a, r)
  obtain ⟨f, hf, -, h1, h2⟩ := frame_of h hb hi ho hc hs.get htr hm
  have hv := session_inv (continues_session h hc)
  have e : afterReturn b.stack.length a r b'.stack = b'.stack.take r ++ (b'.stack.drop r).drop a := by
    unfold afterReturn
    rw [List.drop_drop]
    congr 2
    omega
  rw [e]
  have hx : ∃ m, w.executeOp (.plain .retsub) (w.mach b' (.plain .retsub) 1) = .ok () m ∧
      m.br.stack = b'.stack.take r ++ (b'.stack.drop r).drop a := by
    have : w.executeOp (.plain .retsub) (w.mach b' (.plain .retsub) 1) = X.retsub (w.mach b' (.plain .retsub) 1) := rfl
    rw [this]
    unfold X.retsub
    rw [show (w.mach b' (.plain .retsub) 1).br.frames = _ from hf]
    dsimp only
    rw [h1, h2]
    have hst : (w.mach b' (.plain .retsub) 1).br.stack = b'.stack := rfl
    rw [X.ok_bind (popN_ok r _ (by rw [hst]; omega)), X.ok_bind (popN_ok a _ (by
      show a ≤ (List.drop r _).length
      rw [hst, List.length_drop]; omega)), X.ok_bind (pushAll_ok _ _)]
    refine ⟨_, rfl, ?_⟩
    simp [Mach.onStack, hst]
  obtain ⟨m, hx, hst⟩ := hx
  rw [← hst]
  exact selected_ok hv hs (.inl ⟨rfl, rfl⟩) hbudget hx

/-! ## Examples -/

/-- A subroutine with an argument, a nested call, and a local value. -/
def framesProg : List Op := [.int 5, .int 6, .branch .callsub b!"f", .plain .err, .label b!"f", .u8u8 .proto 1 1,
  .branch .callsub b!"g", .int 9, .i8 .frameDig (-1), .i8 .frameBury 0, .plain .retsub, .label b!"g", .plain .retsub]

/-- Playing a schedule to a call, and a further one from there. -/
def stages (l : List Op) (before after : List (Option Nat)) : Option (Vm × Vm × VmBranch × VmBranch) :=
  (plays (Vm.new l 8) before).bind fun v => (plays v after).bind fun w => v.branches[0]?.bind fun b =>
    w.branches[0]?.map fun b' => (v, w, b, b')

theorem stages_spec {l : List Op} {before after : List (Option Nat)} {v w : Vm} {b b' : VmBranch}
    (h : stages l before after = some (v, w, b, b')) :
    Session l 8 v ∧ Continues v w ∧ v.branches[0]? = some b ∧ w.branches[0]? = some b' := by
  unfold stages at h
  obtain ⟨v', h1, h⟩ := Option.bind_eq_some_iff.1 h
  obtain ⟨w', h2, h⟩ := Option.bind_eq_some_iff.1 h
  obtain ⟨b1, h3, h⟩ := Option.bind_eq_some_iff.1 h
  obtain ⟨b2, h4, h⟩ := Option.map_eq_some_iff.1 h
  cases h
  exact ⟨clean_session (continues_clean .new (plays_continues (.refl _) h1)), plays_continues (.refl _) h2, h3, h4⟩

/-- C62: the hypotheses hold at `frame_dig -1`, after the nested call. -/
example : ∃ v w b b', Session framesProg 8 v ∧ v.branches[0]? = some b ∧ b.line = some 2 ∧ Continues v w ∧
    Selected w 0 b' 8 (.i8 .frameDig (-1)) ∧
    b'.trace = b.trace ++ .branch .callsub b!"f" :: [.u8u8 .proto 1 1, .branch .callsub b!"g", .plain .retsub, .int 9] ∧
    FrameAccess b.stack.length (.i8 .frameDig (-1)) b'.stack (⟨.uint64, .uint 6⟩ :: b'.stack) := by
  have h : ((stages framesProg [none, none] [none, none, none, none, none]).map fun (v, w, b, b') =>
      decide (b.line = some 2 ∧ w.branch = some 0 ∧ b'.line = some 8 ∧ w.listing[8]? = some (.i8 .frameDig (-1)) ∧
        b'.trace = b.trace ++ .branch .callsub b!"f" :: [.u8u8 .proto 1 1, .branch .callsub b!"g", .plain .retsub, .int 9] ∧
        b.stack.length = 2 ∧ b'.stack.reverse[1]? = some ⟨.uint64, .uint 6⟩)) = some true := by decide +kernel
  obtain ⟨⟨v, w, b, b'⟩, hs, hd⟩ := Option.map_eq_some_iff.1 h
  obtain ⟨h1, h2, h3, h4, h5, h6, h7⟩ := of_decide_eq_true hd
  obtain ⟨g1, g2, g3, g4⟩ := stages_spec hs
  exact ⟨v, w, b, b', g1, g3, h1, g2, ⟨h2, g4, h3, h4⟩, h5, .dig _ 1 _ _ (by rw [h6]; rfl) h7⟩

/-- C63: the hypotheses hold at `retsub`. -/
example : ∃ v w b b', Session framesProg 8 v ∧ v.branches[0]? = some b ∧ b.line = some 2 ∧ Continues v w ∧
    Selected w 0 b' 10 (.plain .retsub) ∧ b'.stack.length = b.stack.length + 1 ∧
    b'.trace = b.trace ++ .branch .callsub b!"f" :: .u8u8 .proto 1 1 ::
      [.branch .callsub b!"g", .plain .retsub, .int 9, .i8 .frameDig (-1), .i8 .frameBury 0] := by
  have h : ((stages framesProg [none, none] [none, none, none, none, none, none, none]).map fun (v, w, b, b') =>
      decide (b.line = some 2 ∧ w.branch = some 0 ∧ b'.line = some 10 ∧ w.listing[10]? = some (.plain .retsub) ∧
        b'.trace = b.trace ++ .branch .callsub b!"f" :: .u8u8 .proto 1 1 ::
          [.branch .callsub b!"g", .plain .retsub, .int 9, .i8 .frameDig (-1), .i8 .frameBury 0] ∧
        b'.stack.length = b.stack.length + 1)) = some true := by decide +kernel
  obtain ⟨⟨v, w, b, b'⟩, hs, hd⟩ := Option.map_eq_some_iff.1 h
  obtain ⟨h1, h2, h3, h4, h5, h6⟩ := of_decide_eq_true hd
  obtain ⟨g1, g2, g3, g4⟩ := stages_spec hs
  exact ⟨v, w, b, b', g1, g3, h1, g2, ⟨h2, g4, h3, h4⟩, h6, h5⟩

example : NoProto [.branch .callsub b!"g", .plain .retsub, .int 9] :=
  .call _ [] _ .nil (.op _ _ (by simp) (by simp) (by simp) .nil)

/-- C62 fails on stacks of more than 256 values, where the slot is counted modulo 256: `frame_dig -1`
gives another value than the last one before the call. -/
theorem C62_false : ∃ (l : List Op) (v w u : Vm) (i j : Nat) (b b' b'' : VmBranch) (t : Bytes) (o : Op) (stack' : List VmValue),
    Session l 8 v ∧ v.branches[0]? = some b ∧ b.line = some i ∧ At l i (.branch .callsub t) ∧ Continues v w ∧
    Selected w 0 b' j o ∧ b'.trace = b.trace ++ [.branch .callsub t] ∧ FrameAccess b.stack.length o b'.stack stack' ∧
    w.step = some u ∧ u.error = none ∧ u.branches[0]? = some b'' ∧ b''.stack ≠ stack' := by
  have h : ((stages [.int 5, .u8 .dupn 200, .u8 .dupn 200, .int 9, .branch .callsub b!"f", .plain .err, .label b!"f", .i8 .frameDig (-1)]
      [none, none, none, none] [none]).bind fun (v, w, b, b') => w.step.bind fun u => u.branches[0]?.map fun b'' =>
        decide (b.line = some 4 ∧ w.branch = some 0 ∧ b'.line = some 7 ∧ w.listing[7]? = some (.i8 .frameDig (-1)) ∧
        b'.trace = b.trace ++ [.branch .callsub b!"f"] ∧ b.stack.length = 402 ∧ b'.stack.reverse[401]? = some ⟨.uint64, .uint 9⟩ ∧
        u.error = none ∧ b''.stack ≠ ⟨.uint64, .uint 9⟩ :: b'.stack)) = some true := by decide +kernel
  obtain ⟨⟨v, w, b, b'⟩, hs, h⟩ := Option.bind_eq_some_iff.1 h
  obtain ⟨u, hu, h⟩ := Option.bind_eq_some_iff.1 h
  obtain ⟨b'', hb'', hd⟩ := Option.map_eq_some_iff.1 h
  obtain ⟨h1, h2, h3, h4, h5, h6, h7, h8, h9⟩ := of_decide_eq_true hd
  obtain ⟨g1, g2, g3, g4⟩ := stages_spec hs
  exact ⟨_, v, w, u, 4, 7, b, b', b'', b!"f", _, _, g1, g3, h1, rfl, g2, ⟨h2, g4, h3, h4⟩, h5,
    .dig _ 401 _ _ (by rw [h6]; rfl) h7, hu, h8, hb'', h9⟩

/-- C62 fails on a branch created inside the subroutine, which has no frame: `frame_dig` fails there. -/
theorem C62_fork_false : ∃ (l : List Op) (v w u : Vm) (b b' : VmBranch) (t : Bytes) (mid : List Op) (o : Op) (stack' : List VmValue),
    Session l 8 v ∧ v.branches[0]? = some b ∧ b.line = some 1 ∧ At l 1 (.branch .callsub t) ∧ Continues v w ∧
    Selected w 1 b' 7 o ∧ b'.trace = b.trace ++ .branch .callsub t :: mid ∧ Balanced mid ∧
    FrameAccess b.stack.length o b'.stack stack' ∧ w.step = some u ∧ u.error ≠ none := by
  have h : ((plays (Vm.new [.int 5, .branch .callsub b!"f", .plain .err, .label b!"f", .int 1, .branch .bnz b!"g", .label b!"g", .i8 .frameDig (-1)] 8)
      [none]).bind fun v => (plays v [none, none, none, some 1]).bind fun w => v.branches[0]?.bind fun b => w.branches[1]?.bind fun b' =>
        w.step.map fun u => ((v, w, u, b, b'), decide (b.line = some 1 ∧ w.branch = some 1 ∧ b'.line = some 7 ∧ w.listing[7]? = some (.i8 .frameDig (-1)) ∧
        b'.trace = b.trace ++ .branch .callsub b!"f" :: [.int 1, .branch .bnz b!"g"] ∧ b.stack.length = 1 ∧
        b'.stack.reverse[0]? = some ⟨.uint64, .uint 5⟩ ∧ u.error ≠ none))).map (·.2) = some true := by decide +kernel
  obtain ⟨⟨⟨v, w, u, b, b'⟩, d⟩, h, hd⟩ := Option.map_eq_some_iff.1 h
  obtain ⟨v', hv, h⟩ := Option.bind_eq_some_iff.1 h
  obtain ⟨w', hw, h⟩ := Option.bind_eq_some_iff.1 h
  obtain ⟨b1, hb, h⟩ := Option.bind_eq_some_iff.1 h
  obtain ⟨b2, hb', h⟩ := Option.bind_eq_some_iff.1 h
  obtain ⟨u', hu, h⟩ := Option.map_eq_some_iff.1 h
  obtain ⟨h, hdd⟩ := Prod.mk.injEq .. |>.mp h
  cases h
  dsimp only at hd
  rw [hd] at hdd
  obtain ⟨h1, h2, h3, h4, h5, h6, h7, h8⟩ := of_decide_eq_true hdd
  exact ⟨_, v, w, u, b, b', b!"f", [.int 1, .branch .bnz b!"g"], _, _,
    clean_session (continues_clean .new (plays_continues (.refl _) hv)), hb, h1, rfl, plays_continues (.refl _) hw,
    ⟨h2, hb', h3, h4⟩, h5, .op _ _ (by simp) (by simp) (.op _ _ (by simp) (by simp) .nil), .dig _ 0 _ _ (by rw [h6]; rfl) h7, hu, h8⟩

/-- C63 fails: a local value left on the stack is taken for the argument, which stays. -/
theorem C63_false : ∃ (l : List Op) (v w u : Vm) (i j a r : Nat) (b b' b'' : VmBranch) (t : Bytes) (body : List Op),
    Session l 8 v ∧ v.branches[0]? = some b ∧ b.line = some i ∧ At l i (.branch .callsub t) ∧ Continues v w ∧
    Selected w 0 b' j (.plain .retsub) ∧ b'.trace = b.trace ++ .branch .callsub t :: .u8u8 .proto a r :: body ∧
    NoProto body ∧ a ≤ b.stack.length ∧ b.stack.length + r ≤ b'.stack.length ∧ w.step = some u ∧ u.error = none ∧
    u.branches[0]? = some b'' ∧ b''.stack ≠ afterReturn b.stack.length a r b'.stack := by
  have h : ((stages [.int 5, .branch .callsub b!"f", .plain .err, .label b!"f", .u8u8 .proto 1 1, .int 7, .int 8, .plain .retsub]
      [none] [none, none, none, none]).bind fun (v, w, b, b') => w.step.bind fun u => u.branches[0]?.map fun b'' =>
        decide (b.line = some 1 ∧ w.branch = some 0 ∧ b'.line = some 7 ∧ w.listing[7]? = some (.plain .retsub) ∧
        b'.trace = b.trace ++ .branch .callsub b!"f" :: .u8u8 .proto 1 1 :: [.int 7, .int 8] ∧
        1 ≤ b.stack.length ∧ b.stack.length + 1 ≤ b'.stack.length ∧ u.error = none ∧
        b''.stack ≠ afterReturn b.stack.length 1 1 b'.stack)) = some true := by decide +kernel
  obtain ⟨⟨v, w, b, b'⟩, hs, h⟩ := Option.bind_eq_some_iff.1 h
  obtain ⟨u, hu, h⟩ := Option.bind_eq_some_iff.1 h
  obtain ⟨b'', hb'', hd⟩ := Option.map_eq_some_iff.1 h
  obtain ⟨h1, h2, h3, h4, h5, h6, h7, h8, h9⟩ := of_decide_eq_true hd
  obtain ⟨g1, g2, g3, g4⟩ := stages_spec hs
  exact ⟨_, v, w, u, 1, 7, 1, 1, b, b', b'', b!"f", [.int 7, .int 8], g1, g3, h1, rfl, g2, ⟨h2, g4, h3, h4⟩, h5,
    .op _ _ (by simp) (by simp) (by simp) (.op _ _ (by simp) (by simp) (by simp) .nil), h6, h7, hu, h8, hb'', h9⟩

end Teal.Props
