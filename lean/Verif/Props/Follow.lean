import Verif.Lemmas.Follow
import Verif.Props.Display

/-!
# C97, C98: the debugger's errors are real, and it can follow every real run
-/

namespace Teal.Props
open Teal Teal.Spec

/-! ## C97 -/

/-- C97: when the debugger reports an error at an instruction, no real run that has followed the branch
can execute that instruction.  For the first branch and all instructions but those the machine is
known to execute in its own way (`Strange`); for the other branches also without those that access a
frame, unless the debugger shows a subroutine on the call stack or the run is in none.  Missing: these
instructions (`C97_false`, `C97_fork_false`). -/
theorem C97_partial {fn : Functions} {l : List Op} {version : Nat} {v w : Vm} {k i : Nat} {r : Real} {b : VmBranch} {o : Op}
    (h : Follows fn l version v k r) (hs : Selected v k b i o) (hr : OperandInRange o) (hstep : v.step = some w) (he : w.error ≠ none)
    (ho : ¬ Strange r o) (hk : k = 0 ∨ ¬ OnFrame o ∨ b.frames ≠ [] ∨ r.calls = []) : ∀ r', ¬ Does fn o r r' := by
  intro r' hd
  have hv := session_inv (follows_session h)
  obtain ⟨⟨c0, hc0⟩, hx⟩ := follows_exec h hs.get hr ho
    (by
      intro h1 h2
      rcases hk with rfl | hk | hk | hk
      · have := follows_frames h rfl hs.get
        rw [h2] at this
        exact List.length_eq_zero_iff.1 this.symm
      · exact (hk h1).elim
      · exact (hk h2).elim
      · exact hk) hd
  obtain ⟨b', hb'⟩ := step_grows hv hstep hs.get
  rcases selected_step hv hs hstep hb' with ⟨-, e, h1⟩ | ⟨h1, -⟩ | ⟨c, e, m, -, -, h1⟩ | ⟨c, m, -, h1, -⟩
  · rcases hc0 with ⟨h2, -⟩ | h2 <;> rw [h2] at h1 <;> cases h1
  · exact he h1
  · obtain ⟨m', h2⟩ := hx c
    rw [h2] at h1; cases h1
  · exact he h1

/-- Whether the next step reports an error, and where the branch `k` is. -/
def attempt (v : Option Vm) (k : Nat) : Option ((Bool × Option Nat) × Option Nat × List Op) := do
  let v ← v
  let w ← v.step
  let b ← v.branches[k]?
  pure ((w.error.isSome, v.branch), b.line, v.listing)

theorem attempt_step {l : List Op} {k i : Nat} {o : Op} {v : Vm} (h : attempt (some v) k = some ((true, some k), some i, l)) (ho : At l i o) :
    ∃ w b, v.step = some w ∧ w.error ≠ none ∧ Selected v k b i o := by
  simp only [attempt, bind, Option.bind_eq_some_iff] at h
  obtain ⟨v', e, w, h2, b, h3, h5⟩ := h
  cases e
  obtain ⟨h6, h7⟩ := Prod.mk.inj (Option.some.inj h5)
  obtain ⟨h8, h9⟩ := Prod.mk.inj h6
  obtain ⟨h10, h11⟩ := Prod.mk.inj h7
  refine ⟨w, b, h2, ?_, h9, h3, h10, by rw [h11]; exact ho⟩
  intro h0; rw [h0] at h8; cases h8

/-- At `+` with a byte string on the stack the debugger reports an error: no real run can add it. -/
example (fn : Functions) : ∃ v w b r, Follows fn [.int 1, .byte b!"a", .plain .plus] 8 v 0 r ∧ Selected v 0 b 2 (.plain .plus) ∧
    OperandInRange (.plain .plus) ∧ v.step = some w ∧ w.error ≠ none ∧ ¬ Strange r (.plain .plus) := by
  obtain ⟨v1, e1, f1⟩ := follow_one (fn := fn) (n := 0) (k := 0) (tr := []) (o := .int 1) (s := []) (s' := [⟨.uint64, .uint 1⟩])
    (.new (l := [.int 1, .byte b!"a", .plain .plus]) (version := 8)) rfl (by decide +kernel)
    (fun fs hd => by rcases hd with ⟨⟨⟩⟩) (.constants (.int 1))
  obtain ⟨v2, e2, f2⟩ := follow_one (n := 1) (k := 0) (tr := [.int 1]) (o := .byte b!"a") (s := [⟨.uint64, .uint 1⟩])
    (s' := [⟨.bytes, .bytes b!"a"⟩, ⟨.uint64, .uint 1⟩])
    f1 e1 (by decide +kernel) (fun fs hd => by rcases hd with ⟨⟨⟩⟩) (.constants (.byte _))
  obtain ⟨w, b, h1, h2, h3⟩ := attempt_step (v := v2) (k := 0) (i := 2) (o := .plain .plus) (l := [.int 1, .byte b!"a", .plain .plus])
    (by rw [← e2]; decide +kernel) rfl
  exact ⟨v2, w, b, _, f2, h3, trivial, h1, h2, by rintro ⟨⟨⟩⟩⟩

/-- C97 fails at `bitlen` of an integer: the debugger reports an error, although the instruction
accepts integers. -/
theorem C97_false (fn : Functions) : ∃ (l : List Op) (version : Nat) (v w : Vm) (i : Nat) (r r' : Real) (b : VmBranch) (o : Op),
    Follows fn l version v 0 r ∧ Selected v 0 b i o ∧ OperandInRange o ∧ v.step = some w ∧ w.error ≠ none ∧ Does fn o r r' := by
  obtain ⟨v1, e1, f1⟩ := follow_one (fn := fn) (n := 0) (k := 0) (tr := []) (o := .int 5) (s := []) (s' := [⟨.uint64, .uint 5⟩])
    (.new (l := [.int 5, .plain .bitlen]) (version := 8)) rfl (by decide +kernel)
    (fun fs hd => by rcases hd with ⟨⟨⟩⟩) (.constants (.int 5))
  obtain ⟨w, b, h1, h2, h3⟩ := attempt_step (v := v1) (k := 0) (i := 1) (o := .plain .bitlen) (l := [.int 5, .plain .bitlen])
    (by rw [← e1]; decide +kernel) rfl
  exact ⟨_, _, v1, w, 1, _, _, b, _, f1, h3, trivial, h1, h2,
    .table (args := [.any]) (rets := [.uint64]) (xs := [.uint 5]) (ys := [.uint 3]) (s := []) rfl (by simp [OwnRule]) rfl
      ⟨rfl, by intro i t x h h'; cases i with | zero => cases h; trivial | succ => cases h⟩
      ⟨rfl, by intro i t x h h'; cases i with | zero => cases h; cases h'; exact ⟨3, rfl⟩ | succ => cases h⟩⟩

/-- A subroutine with a conditional branch. -/
def branchInside : List Op :=
  [.branch .callsub b!"f", .plain .err, .label b!"f", .int 1, .branch .bnz b!"g", .plain .err, .label b!"g", .u8u8 .proto 0 0]

/-- C97 fails on a branch created inside a subroutine: it does not know that it is in a subroutine, so
that the debugger reports an error at `proto`. -/
theorem C97_fork_false (fn : Functions) : ∃ (l : List Op) (version : Nat) (v w : Vm) (k i : Nat) (r r' : Real) (b : VmBranch) (o : Op),
    Follows fn l version v k r ∧ Selected v k b i o ∧ OperandInRange o ∧ v.step = some w ∧ w.error ≠ none ∧ ¬ Strange r o ∧
    Does fn o r r' := by
  obtain ⟨v1, e1, f1⟩ := follow_one (fn := fn) (n := 0) (k := 0) (tr := []) (o := .branch .callsub b!"f") (s := []) (s' := [])
    (.new (l := branchInside) (version := 8)) rfl (by decide +kernel) (fun fs hd => by rcases hd with ⟨⟨⟩⟩) (.callsub _)
  obtain ⟨v2, e2, f2⟩ := follow_one (n := 1) (k := 0) (tr := [.branch .callsub b!"f"]) (o := .int 1) (s := []) (s' := [⟨.uint64, .uint 1⟩])
    f1 e1 (by decide +kernel) (fun fs hd => by rcases hd with ⟨⟨⟩⟩) (.constants (.int 1))
  obtain ⟨v, v3, b, b', h1, h2, h3, h4, h5, h6, h7, h8, h9, h10⟩ := trial_step (l := branchInside) (version := 8) (n := 2) (k := 0)
    (tr := [.branch .callsub b!"f", .int 1]) (tr' := [.branch .callsub b!"f", .int 1, .branch .bnz b!"g"])
    (s := [⟨.uint64, .uint 1⟩]) (s' := []) (by decide +kernel)
  rw [e2] at h1; cases h1
  have hlen : ((after branchInside 8 2).map (·.branches.length), (after branchInside 8 3).map (·.branches.length)) = (some 1, some 2) := by
    decide +kernel
  rw [e2, h2] at hlen
  simp only [Option.map_some, Prod.mk.injEq, Option.some.injEq] at hlen
  have f3 : Follows fn branchInside 8 v3 1 _ := .fork f2 h5 h3 h4 ⟨b, b', h5, h6, by rw [h7, h8]; rfl⟩
    (by rw [h9]; intro hd; rcases hd with ⟨⟨⟩⟩)
    (.table (args := [.uint64]) (rets := []) (xs := [.uint 1]) (ys := []) (s := []) rfl (by simp [OwnRule]) rfl
      ⟨rfl, by intro i t x h h'; cases i with | zero => cases h; cases h'; exact ⟨1, rfl⟩ | succ => cases h⟩
      ⟨rfl, by intro i t x h h'; cases h⟩) (by omega) (by omega)
  obtain ⟨w, b2, g1, g2, g3⟩ := attempt_step (v := v3.switch 1) (k := 1) (i := 7) (o := .u8u8 .proto 0 0) (l := branchInside)
    (by
      have : some (v3.switch 1) = (after branchInside 8 3).map (·.switch 1) := by rw [h2]; rfl
      rw [this]; decide +kernel) rfl
  exact ⟨_, _, _, w, 1, 7, _, _, b2, _, .switch 1 f3, g3, trivial, g1, g2, by rintro ⟨⟨⟩⟩, .proto 0 0 rfl (Nat.le_refl _)⟩

/-! ## C98 -/

/-- C98: for every real run within the budget there is a session with a branch that follows it: with
the same history, the same place and at least the budget the run has left.  For runs that contain no
instruction the machine is known to execute in its own way and, inside subroutines, no jump of a
conditional branch (`Followable`).  Missing: these (`C98_false`, `C98_fork_false`). -/
theorem C98_partial {fn : Functions} (hsel : ∀ s, (fn.selector s).length = 4) {l : List Op} {version : Nat} (hu : UniqueLabels l)
    (hops : ∀ o ∈ l, OperandInRange o) {tr : List Op} {c : Option (Nat × List Nat)} {n : Nat} {r : Real}
    (h : RunsTo fn l version Followable tr c n r) (hn : n ≤ 700) :
    ∃ v k b, Follows fn l version v k r ∧ v.branches[k]? = some b ∧ b.trace = tr ∧ (700 : Int) - n ≤ b.budget ∧
      (∀ i rs, c = some (i, rs) → Reaches l i b.line) ∧ (c = none → b.line = none) := by
  obtain ⟨v, k, b, h⟩ := run_along hsel hu hops h hn
  exact ⟨v, k, b, h.follows, h.get, h.trace, h.budget, fun i rs hc => (h.place i rs hc).1, h.ended⟩

/-- Any step. -/
def anyStep (_ : Nat × List Nat) (_ : Real) (_ : Op) (_ : Option (Nat × List Nat)) : Prop := True

/-- C98 fails with `bitlen` of an integer: a real run can execute it, but no branch of the debugger
has it in its history, unless after an error. -/
theorem C98_false (fn : Functions) : ∃ (l : List Op) (version : Nat) (tr : List Op) (c : Option (Nat × List Nat)) (n : Nat) (r : Real),
    UniqueLabels l ∧ (∀ o ∈ l, OperandInRange o) ∧ RunsTo fn l version anyStep tr c n r ∧ n ≤ 700 ∧
    ∀ (v : Vm) (k : Nat) (b : VmBranch), Clean l version v → v.branches[k]? = some b → b.trace ≠ tr := by
  refine ⟨[.int 5, .plain .bitlen], 8, [.int 5, .plain .bitlen], _, _, _, ?_, ?_,
    .exec (tr := [.int 5]) (.exec (tr := []) .start rfl (by rintro ⟨⟩) (.constants (.int 5)) (.next rfl (by rintro ⟨_, ⟨⟩⟩)) trivial)
      rfl (by rintro ⟨⟩)
      (.table (args := [.any]) (rets := [.uint64]) (xs := [.uint 5]) (ys := [.uint 3]) (s := []) rfl (by simp [OwnRule]) rfl
        ⟨rfl, by intro i t x h h'; cases i with | zero => cases h; trivial | succ => cases h⟩
        ⟨rfl, by intro i t x h h'; cases i with | zero => cases h; cases h'; exact ⟨3, rfl⟩ | succ => cases h⟩)
      (.next rfl (by rintro ⟨_, ⟨⟩⟩)) trivial, by decide +kernel, ?_⟩
  · rintro n i j hi hj
    match i, hi with
    | 0, hi => cases hi
    | 1, hi => cases hi
  · intro o ho
    simp at ho
    rcases ho with rfl | rfl <;> trivial
  · intro v k b hc hb ht
    obtain ⟨v1, b1, i1, c1, m1, hm1, ht1, -, -, -, hx1, -⟩ := (clean_made hc hb).last (tr := [.int 5]) (o := .plain .bitlen) ht
    obtain ⟨v0, b0, i0, c0, m0, -, -, -, -, -, hx0, hs0, -⟩ := hm1.last (tr := []) (o := .int 5) ht1
    have e0 : b1.stack = ⟨.uint64, .uint 5⟩ :: b0.stack := by
      rw [hs0]; cases hx0; rfl
    obtain ⟨id, line, stack, frames, budget, name, trace⟩ := b1
    dsimp only at e0
    subst e0
    cases hx1

/-- A subroutine that returns from a place a conditional branch jumps to. -/
def returnInside : List Op :=
  [.branch .callsub b!"f", .int 5, .plain .err, .label b!"f", .int 1, .branch .bnz b!"g", .plain .err, .label b!"g", .plain .retsub]

theorem at_inj {l : List Op} {i : Nat} {o o' : Op} (h : At l i o) (h' : At l i o') : o = o' := Option.some.inj (h.symm.trans h')

/-- C98 fails with a conditional branch inside a subroutine: no branch of the debugger returns from
there to the caller. -/
theorem C98_fork_false (fn : Functions) : ∃ (l : List Op) (version : Nat) (tr : List Op) (c : Option (Nat × List Nat)) (n : Nat) (r : Real),
    UniqueLabels l ∧ (∀ o ∈ l, OperandInRange o) ∧ RunsTo fn l version (fun _ r o _ => ¬ Strange r o) tr c n r ∧ n ≤ 700 ∧
    ∀ (v : Vm) (k : Nat) (b : VmBranch), Clean l version v → v.branches[k]? = some b → b.trace ≠ tr := by
  have r1 : RunsTo fn returnInside 8 (fun _ r o _ => ¬ Strange r o) [.branch .callsub b!"f"] (some (3, [1])) _ _ :=
    .exec (tr := []) .start rfl (by rintro ⟨⟩) (.callsub _) (.call rfl rfl) (by rintro ⟨⟨⟩⟩)
  have r2 : RunsTo fn returnInside 8 (fun _ r o _ => ¬ Strange r o) [.branch .callsub b!"f", .int 1] (some (5, [1])) _ _ :=
    .exec (tr := [.branch .callsub b!"f"]) (.skip r1 rfl (.label _)) rfl (by rintro ⟨⟩) (.constants (.int 1)) (.next rfl (by rintro ⟨_, ⟨⟩⟩)) (by rintro ⟨⟨⟩⟩)
  have r3 : RunsTo fn returnInside 8 (fun _ r o _ => ¬ Strange r o) [.branch .callsub b!"f", .int 1, .branch .bnz b!"g"] (some (7, [1])) _ _ :=
    .exec (tr := [.branch .callsub b!"f", .int 1]) r2 rfl (by rintro ⟨⟩)
      (.table (args := [.uint64]) (rets := []) (xs := [.uint 1]) (ys := []) (s := []) rfl (by simp [OwnRule]) rfl
        ⟨rfl, by intro i t x h h'; cases i with | zero => cases h; cases h'; exact ⟨1, rfl⟩ | succ => cases h⟩
        ⟨rfl, by intro i t x h h'; cases h⟩)
      (.jump (n := b!"g") rfl (.branch _ _) (by simp) rfl) (by rintro ⟨⟨⟩⟩)
  have r4 : RunsTo fn returnInside 8 (fun _ r o _ => ¬ Strange r o) [.branch .callsub b!"f", .int 1, .branch .bnz b!"g", .plain .retsub] (some (1, [])) _ _ :=
    .exec (tr := [.branch .callsub b!"f", .int 1, .branch .bnz b!"g"]) (.skip r3 rfl (.label _)) rfl (by rintro ⟨⟩) (.retsub rfl) (.ret rfl)
      (by intro h; cases h with | ignored h => cases h | leftOver h _ => cases h)
  have r5 : RunsTo fn returnInside 8 (fun _ r o _ => ¬ Strange r o) [.branch .callsub b!"f", .int 1, .branch .bnz b!"g", .plain .retsub, .int 5] (some (2, [])) _ _ :=
    .exec (tr := [.branch .callsub b!"f", .int 1, .branch .bnz b!"g", .plain .retsub]) r4 rfl (by rintro ⟨⟩) (.constants (.int 5))
      (.next rfl (by rintro ⟨_, ⟨⟩⟩)) (by rintro ⟨⟨⟩⟩)
  refine ⟨_, _, _, _, _, _, ?_, ?_, r5, by decide +kernel, ?_⟩
  · have key : ∀ i n, At returnInside i (.label n) → (i = 3 ∧ n = b!"f") ∨ (i = 7 ∧ n = b!"g") := by
      intro i n h
      match i, h with
      | 0, h | 1, h | 2, h | 4, h | 5, h | 6, h | 8, h => cases h
      | 3, h => cases h; exact .inl ⟨rfl, rfl⟩
      | 7, h => cases h; exact .inr ⟨rfl, rfl⟩
    intro n i j hi hj
    rcases key i n hi with ⟨rfl, rfl⟩ | ⟨rfl, rfl⟩ <;> rcases key j _ hj with ⟨rfl, h⟩ | ⟨rfl, h⟩ <;> first | rfl | cases h
  · intro o ho
    simp [returnInside] at ho
    rcases ho with rfl | rfl | rfl | rfl | rfl | rfl | rfl | rfl | rfl <;> trivial
  · intro v k b hc hb ht
    obtain ⟨v4, b4, i4, c4, m4, hm4, ht4, hl4, ha4, -, -, -, -⟩ := (clean_made hc hb).last
      (tr := [.branch .callsub b!"f", .int 1, .branch .bnz b!"g", .plain .retsub]) (o := .int 5) ht
    obtain ⟨v3, b3, i3, c3, m3, hm3, ht3, hl3, ha3, hv3, hx3, -, hw3⟩ := hm4.last (tr := [.branch .callsub b!"f", .int 1, .branch .bnz b!"g"]) (o := .plain .retsub) ht4
    obtain ⟨v2, b2, i2, c2, m2, hm2, ht2, hl2, ha2, hv2, hx2, -, hw2⟩ := hm3.last (tr := [.branch .callsub b!"f", .int 1]) (o := .branch .bnz b!"g") ht3
    have e4 : i4 = 1 := by
      match i4, ha4 with
      | 0, h | 2, h | 3, h | 4, h | 5, h | 6, h | 7, h | 8, h => cases h
      | 1, h => rfl
    have e3 : i3 = 8 := by
      match i3, ha3 with
      | 0, h | 1, h | 2, h | 3, h | 4, h | 5, h | 6, h | 7, h => cases h
      | 8, h => rfl
    have e2 : i2 = 5 := by
      match i2, ha2 with
      | 0, h | 1, h | 2, h | 3, h | 4, h | 6, h | 7, h | 8, h => cases h
      | 5, h => rfl
    subst e4; subst e3; subst e2
    -- the branch that is at `retsub` was created by `bnz`
    have hf3 : b3.frames = [] := by
      rcases hw2 with ⟨-, h⟩ | h
      · obtain ⟨j, hj, hr⟩ := h 8 hl3
        have hg := exec_goes hl2 hx2
        have : j = 6 := by
          cases hg with
          | next _ h _ _ _ => rw [hj] at h; cases h; rfl
          | halt h _ _ => cases h
          | lost t h _ _ _ _ => rcases h with h | h <;> cases h
          | jump t j h _ _ _ => cases h
          | call t j f h _ _ _ _ => cases h
          | ret f fs h _ _ _ => cases h
          | retNone h _ _ _ => cases h
        subst this
        have := reaches_at hr (o := .plain .err) rfl (by rintro ⟨⟩)
        cases this
      · exact h.1
    -- and does not return
    have hg := exec_goes hl3 hx3
    rcases hw3 with ⟨-, h⟩ | h
    · obtain ⟨j, hj, hr⟩ := h 1 hl4
      have : j = 9 := by
        cases hg with
        | next h _ _ _ _ => exact (h .retsub).elim
        | halt h _ _ => cases h
        | lost t h _ _ _ _ => rcases h with h | h <;> cases h
        | jump t j h _ _ _ => cases h
        | call t j f h _ _ _ _ => cases h
        | ret f fs _ h _ _ => rw [hf3] at h; cases h
        | retNone _ _ h _ => rw [hj] at h; cases h; rfl
      subst this
      rcases hr with ⟨x, hx, hle, -⟩ | ⟨-, h⟩
      · cases hx; omega
      · have := h 1 rfl
        simp [returnInside] at this
    · obtain ⟨-, ts, h⟩ := h
      cases h

/-- A program with a conditional branch, a subroutine with a frame and arithmetic. -/
def sampleRun : List Op :=
  [.int 1, .branch .bnz b!"a", .plain .err, .label b!"a", .int 4, .branch .callsub b!"f", .plain .returnOp, .label b!"f",
   .u8u8 .proto 1 1, .i8 .frameDig (-1), .int 3, .plain .plus, .plain .retsub]

/-- Running it to the end, jumping at the branch. -/
example (fn : Functions) : ∃ n r, UniqueLabels sampleRun ∧ (∀ o ∈ sampleRun, OperandInRange o) ∧ n ≤ 700 ∧
    RunsTo fn sampleRun 8 Followable [.int 1, .branch .bnz b!"a", .int 4, .branch .callsub b!"f", .u8u8 .proto 1 1, .i8 .frameDig (-1),
      .int 3, .plain .plus, .plain .retsub, .plain .returnOp] none n r := by
  have r1 : RunsTo fn sampleRun 8 Followable [.int 1] (some (1, [])) _ _ :=
    .exec (tr := []) .start rfl (by rintro ⟨⟩) (.constants (.int 1)) (.next rfl (by rintro ⟨_, ⟨⟩⟩)) ⟨by rintro ⟨⟨⟩⟩, by rintro ts ⟨⟩⟩
  have r2 : RunsTo fn sampleRun 8 Followable [.int 1, .branch .bnz b!"a"] (some (3, [])) _ _ :=
    .exec (tr := [.int 1]) r1 rfl (by rintro ⟨⟩)
      (.table (args := [.uint64]) (rets := []) (xs := [.uint 1]) (ys := []) (s := []) rfl (by simp [OwnRule]) rfl
        ⟨rfl, by intro i t x h h'; cases i with | zero => cases h; cases h'; exact ⟨1, rfl⟩ | succ => cases h⟩
        ⟨rfl, by intro i t x h h'; cases h⟩)
      (.jump (n := b!"a") rfl (.branch _ _) (by simp) rfl) ⟨by rintro ⟨⟨⟩⟩, fun _ _ => .inr rfl⟩
  have r3 : RunsTo fn sampleRun 8 Followable [.int 1, .branch .bnz b!"a", .int 4] (some (5, [])) _ _ :=
    .exec (tr := [.int 1, .branch .bnz b!"a"]) (.skip r2 rfl (.label _)) rfl (by rintro ⟨⟩) (.constants (.int 4))
      (.next rfl (by rintro ⟨_, ⟨⟩⟩)) ⟨by rintro ⟨⟨⟩⟩, by rintro ts ⟨⟩⟩
  have r4 : RunsTo fn sampleRun 8 Followable [.int 1, .branch .bnz b!"a", .int 4, .branch .callsub b!"f"] (some (7, [6])) _ _ :=
    .exec (tr := [.int 1, .branch .bnz b!"a", .int 4]) r3 rfl (by rintro ⟨⟩) (.callsub _) (.call rfl rfl) ⟨by rintro ⟨⟨⟩⟩, by rintro ts ⟨⟩⟩
  have r5 : RunsTo fn sampleRun 8 Followable [.int 1, .branch .bnz b!"a", .int 4, .branch .callsub b!"f", .u8u8 .proto 1 1] (some (9, [6])) _ _ :=
    .exec (tr := [.int 1, .branch .bnz b!"a", .int 4, .branch .callsub b!"f"]) (.skip r4 rfl (.label _)) rfl (by rintro ⟨⟩)
      (.proto 1 1 rfl (Nat.le_refl _)) (.next rfl (by rintro ⟨_, ⟨⟩⟩)) ⟨by rintro ⟨⟨⟩⟩, by rintro ts ⟨⟩⟩
  have r6 : RunsTo fn sampleRun 8 Followable [.int 1, .branch .bnz b!"a", .int 4, .branch .callsub b!"f", .u8u8 .proto 1 1, .i8 .frameDig (-1)]
      (some (10, [6])) _ _ :=
    .exec (tr := [.int 1, .branch .bnz b!"a", .int 4, .branch .callsub b!"f", .u8u8 .proto 1 1]) r5 rfl (by rintro ⟨⟩)
      (.frame rfl (.dig (-1) 0 (.uint 4) _ rfl rfl)) (.next rfl (by rintro ⟨_, ⟨⟩⟩))
      ⟨by intro h; cases h with | ignored h => cases h | frame _ _ h h' => cases h; exact absurd h' (by decide), by rintro ts ⟨⟩⟩
  have r7 : RunsTo fn sampleRun 8 Followable [.int 1, .branch .bnz b!"a", .int 4, .branch .callsub b!"f", .u8u8 .proto 1 1, .i8 .frameDig (-1),
      .int 3] (some (11, [6])) _ _ :=
    .exec (tr := [.int 1, .branch .bnz b!"a", .int 4, .branch .callsub b!"f", .u8u8 .proto 1 1, .i8 .frameDig (-1)]) r6 rfl (by rintro ⟨⟩)
      (.constants (.int 3)) (.next rfl (by rintro ⟨_, ⟨⟩⟩)) ⟨by rintro ⟨⟨⟩⟩, by rintro ts ⟨⟩⟩
  have r8 : RunsTo fn sampleRun 8 Followable [.int 1, .branch .bnz b!"a", .int 4, .branch .callsub b!"f", .u8u8 .proto 1 1, .i8 .frameDig (-1),
      .int 3, .plain .plus] (some (12, [6])) _ _ :=
    .exec (tr := [.int 1, .branch .bnz b!"a", .int 4, .branch .callsub b!"f", .u8u8 .proto 1 1, .i8 .frameDig (-1), .int 3]) r7 rfl (by rintro ⟨⟩)
      (.table (args := [.uint64, .uint64]) (rets := [.uint64]) (xs := [.uint 3, .uint 4]) (ys := [.uint 7]) (s := [.uint 4]) rfl
        (by simp [OwnRule]) rfl
        ⟨rfl, by
          intro i t x h h'
          match i, h, h' with
          | 0, h, h' => cases h; cases h'; exact ⟨3, rfl⟩
          | 1, h, h' => cases h; cases h'; exact ⟨4, rfl⟩⟩
        ⟨rfl, by intro i t x h h'; cases i with | zero => cases h; cases h'; exact ⟨7, rfl⟩ | succ => cases h⟩)
      (.next rfl (by rintro ⟨_, ⟨⟩⟩)) ⟨by rintro ⟨⟨⟩⟩, by rintro ts ⟨⟩⟩
  have r9 : RunsTo fn sampleRun 8 Followable [.int 1, .branch .bnz b!"a", .int 4, .branch .callsub b!"f", .u8u8 .proto 1 1, .i8 .frameDig (-1),
      .int 3, .plain .plus, .plain .retsub] (some (6, [])) _ _ :=
    .exec (tr := [.int 1, .branch .bnz b!"a", .int 4, .branch .callsub b!"f", .u8u8 .proto 1 1, .i8 .frameDig (-1), .int 3, .plain .plus]) r8 rfl
      (by rintro ⟨⟩) (.retsubProto rfl (by decide)) (.ret rfl)
      ⟨by intro h; cases h with | ignored h => cases h | leftOver h h' => cases h; exact h' rfl, by rintro ts ⟨⟩⟩
  refine ⟨_, _, ?_, ?_, ?_, .halt (tr := [.int 1, .branch .bnz b!"a", .int 4, .branch .callsub b!"f", .u8u8 .proto 1 1, .i8 .frameDig (-1), .int 3,
    .plain .plus, .plain .retsub]) r9 rfl .ret
      (.table (args := [.uint64]) (rets := []) (xs := [.uint 7]) (ys := []) (s := []) rfl (by simp [OwnRule]) rfl
        ⟨rfl, by intro i t x h h'; cases i with | zero => cases h; cases h'; exact ⟨7, rfl⟩ | succ => cases h⟩
        ⟨rfl, by intro i t x h h'; cases h⟩) ⟨by rintro ⟨⟨⟩⟩, by rintro ts ⟨⟩⟩⟩
  · have key : ∀ i n, At sampleRun i (.label n) → (i = 3 ∧ n = b!"a") ∨ (i = 7 ∧ n = b!"f") := by
      intro i n h
      match i, h with
      | 0, h | 1, h | 2, h | 4, h | 5, h | 6, h | 8, h | 9, h | 10, h | 11, h | 12, h => cases h
      | 3, h => cases h; exact .inl ⟨rfl, rfl⟩
      | 7, h => cases h; exact .inr ⟨rfl, rfl⟩
    intro n i j hi hj
    rcases key i n hi with ⟨rfl, rfl⟩ | ⟨rfl, rfl⟩ <;> rcases key j _ hj with ⟨rfl, h⟩ | ⟨rfl, h⟩ <;> first | rfl | cases h
  · intro o ho
    simp [sampleRun] at ho
    rcases ho with rfl | rfl | rfl | rfl | rfl | rfl | rfl | rfl | rfl | rfl | rfl | rfl | rfl <;> trivial
  · decide +kernel

end Teal.Props
