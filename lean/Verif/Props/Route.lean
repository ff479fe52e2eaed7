import Verif.Lemmas.Route
import Verif.Props.VmFlow

/-!
# C125: where the branches of the debugger's machine go
-/

namespace Teal.Props

open Teal Teal.Spec

/-- C125: as long as no instruction has failed, a branch is where its history leads, with the name and
the calls it has according to it; or there is a reason why it is at no line. -/
theorem C125 {l : List Op} {version : Nat} {v : Vm} (h : Clean l version v) {b : VmBranch} (hb : b ∈ v.branches) :
    (∀ x, b.line = some x → ∃ j n, Route l false b.trace (j, n, callsOf b) ∧ Reaches l j (some x) ∧ Passes l j x n b.name) ∧
    (b.line = none → Ended l version false b) := by
  obtain ⟨j, hj⟩ := List.mem_iff_getElem?.1 hb
  have := clean_routed h j b hj
  exact ⟨this.here, this.ended⟩

/-- C125, in every session: an instruction that fails is in the history, and is tried again. -/
theorem C125_failed {l : List Op} {version : Nat} {v : Vm} (h : Session l version v) {b : VmBranch} (hb : b ∈ v.branches) :
    (∀ x, b.line = some x → ∃ j n, Route l true b.trace (j, n, callsOf b) ∧ Reaches l j (some x) ∧ Passes l j x n b.name) ∧
    (b.line = none → Ended l version true b) := by
  obtain ⟨j, hj⟩ := List.mem_iff_getElem?.1 hb
  have := session_routed h j b hj
  exact ⟨this.here, this.ended⟩

theorem firstFrom_unique {l : List Op} {j x y : Nat} (h1 : FirstFrom l j x) (h2 : FirstFrom l j y) : x = y := by
  obtain ⟨a1, ⟨o1, b1, c1⟩, d1⟩ := h1
  obtain ⟨a2, ⟨o2, b2, c2⟩, d2⟩ := h2
  rcases Nat.lt_trichotomy x y with h | h | h
  · obtain ⟨o, e, f⟩ := d2 x a1 h
    unfold At at e b1
    rw [e] at b1; cases b1; exact absurd f c1
  · exact h
  · obtain ⟨o, e, f⟩ := d1 y a2 h
    unfold At at e b2
    rw [e] at b2; cases b2; exact absurd f c2

theorem passes_unique {l : List Op} {j x : Nat} {n n1 n2 : Bytes} (h1 : Passes l j x n n1) (h2 : Passes l j x n n2) : n1 = n2 := by
  rcases h1 with ⟨rfl, h1⟩ | ⟨y, a1, a2, a3, a4⟩
  · rcases h2 with ⟨rfl, -⟩ | ⟨z, b1, b2, b3, -⟩
    · rfl
    · exact absurd b3 (h1 z _ b1 b2)
  · rcases h2 with ⟨rfl, h2⟩ | ⟨z, b1, b2, b3, b4⟩
    · exact absurd a3 (h2 y _ a1 a2)
    · rcases Nat.lt_trichotomy y z with h | h | h
      · exact absurd b3 (a4 z _ h b2)
      · subst h
        unfold DefinedAt At at a3 b3
        rw [a3] at b3; cases b3; rfl
      · exact absurd a3 (b4 y _ h a2)

theorem goesOn_unique {l : List Op} {o : Op} {p c c' : Place} (h : GoesOn l o p c) (h' : GoesOn l o p c') : c = c' := by
  cases h with
  | next hno =>
    cases h' with
    | next => rfl
    | jump => exact absurd (.b _) hno
    | call => exact absurd (.callsub _) hno
    | ret => exact absurd .retsub hno
    | fall => exact absurd .retsub hno
  | jump hd =>
    cases h' with
    | next hno => exact absurd (.b _) hno
    | jump hd2 => rw [Nat.le_antisymm (hd2.2 _ hd.1) (hd.2 _ hd2.1)]
  | call hd =>
    cases h' with
    | next hno => exact absurd (.callsub _) hno
    | call hd2 => rw [Nat.le_antisymm (hd2.2 _ hd.1) (hd.2 _ hd2.1)]
  | ret =>
    cases h' with
    | next hno => exact absurd .retsub hno
    | ret => rfl
  | fall =>
    cases h' with
    | next hno => exact absurd .retsub hno
    | fall => rfl

/-- Without instructions that have several continuations, the history says where a branch is: no two routes with the
same history lead to different places. -/
theorem C125_unique {l : List Op} {tr : List Op} (hn : ∀ o ∈ tr, ∀ ts, ¬ Forks o ts) {c c' : Place} (h : Route l false tr c)
    (h' : Route l false tr c') : c = c' := by
  induction h generalizing c' with
  | start =>
    generalize htr : ([] : List Op) = tr at h'
    cases h' with
    | start => rfl
    | on => simp at htr
    | fork => simp at htr
    | failed he => cases he
  | @on tr j n cs i n' o c h1 hf hps hat hg ih =>
    generalize htr : tr ++ [o] = tr' at h'
    cases h' with
    | start => simp at htr
    | @on tr2 j2 n2 cs2 i2 n2' o2 c2 h2 hf2 hps2 hat2 hg2 =>
      obtain ⟨rfl, rfl⟩ : tr = tr2 ∧ o = o2 := by
        have := List.append_inj' htr rfl
        exact ⟨this.1, by simpa using this.2⟩
      have := ih (fun o ho => hn o (List.mem_append_left _ ho)) h2
      simp only [Prod.mk.injEq] at this
      obtain ⟨rfl, rfl, rfl⟩ := this
      obtain rfl := firstFrom_unique hf hf2
      obtain rfl := passes_unique hps hps2
      exact goesOn_unique hg hg2
    | @fork tr2 _ _ _ _ o2 ts _ _ _ _ _ hfk =>
      obtain ⟨rfl, rfl⟩ : tr = tr2 ∧ o = o2 := by
        have := List.append_inj' htr rfl
        exact ⟨this.1, by simpa using this.2⟩
      exact absurd hfk (hn o (by simp) ts)
    | failed he => cases he
  | @fork tr _ _ _ _ o ts _ _ _ _ _ hfk => exact absurd hfk (hn o (by simp) ts)
  | failed he => cases he

/-- A branch created in a subroutine comes to its `retsub` and goes on behind it (cf. `C40_false`). -/
example : ∃ v b, Clean [.branch .callsub b!"f", .int 1, .plain .returnOp, .label b!"f", .int 1, .branch .bnz b!"g", .plain .err, .label b!"g",
    .plain .retsub, .int 5, .plain .returnOp] 8 v ∧ b ∈ v.branches ∧ b.line = some 9 ∧ callsOf b = [] ∧ b.name = b!"g" ∧
    b.trace = [.branch .callsub b!"f", .int 1, .branch .bnz b!"g", .plain .retsub] := by
  have h : ((plays (Vm.new [.branch .callsub b!"f", .int 1, .plain .returnOp, .label b!"f", .int 1, .branch .bnz b!"g", .plain .err, .label b!"g",
      .plain .retsub, .int 5, .plain .returnOp] 8) [none, none, none, some 1, none]).bind fun w => w.branches[1]?.map fun b =>
      (b.line, callsOf b, b.name, b.trace)) = some (some 9, [], b!"g", [.branch .callsub b!"f", .int 1, .branch .bnz b!"g", .plain .retsub]) := by
    decide +kernel
  obtain ⟨v, h1, h⟩ := Option.bind_eq_some_iff.1 h
  obtain ⟨b, h2, h⟩ := Option.map_eq_some_iff.1 h
  simp only [Prod.mk.injEq] at h
  exact ⟨v, b, continues_clean .new (plays_continues (.refl _) h1), List.mem_of_getElem? h2, h.1, h.2.1, h.2.2.1, h.2.2.2⟩
example : ∀ (l : List Op), l = [.branch .callsub b!"f", .int 1, .plain .returnOp, .label b!"f", .int 1, .branch .bnz b!"g", .plain .err, .label b!"g",
    .plain .retsub, .int 5, .plain .returnOp] → ∃ j n, Route l false [.branch .callsub b!"f", .int 1, .branch .bnz b!"g", .plain .retsub] (j, n, []) ∧
      Reaches l j (some 9) ∧ Passes l j 9 n b!"g" := by
  intro l hl
  have first : ∀ (x : Nat) (o : Op), l[x]? = some o → ¬ NoOp o → FirstFrom l x x := fun x o h1 h2 =>
    ⟨Nat.le_refl _, ⟨o, h1, h2⟩, fun y h3 h4 => by omega⟩
  have lab : ∀ (x : Nat) (o : Op) (n : Bytes), l[x]? = some (.label n) → l[x + 1]? = some o → ¬ NoOp o → FirstFrom l x (x + 1) := fun x o n h0 h1 h2 =>
    ⟨by omega, ⟨o, h1, h2⟩, fun y h3 h4 => ⟨.label n, (by
      obtain rfl : y = x := by omega
      exact h0), .label n⟩⟩
  have through : ∀ (x : Nat) (n m : Bytes), l[x]? = some (.label m) → Passes l x (x + 1) n m := fun x n m h =>
    .inr ⟨x, Nat.le_refl _, by omega, h, fun z m h1 h2 => by omega⟩
  have hf : LastDefined l b!"f" 3 := by subst hl; exact findLabel_some (by decide +kernel)
  have hg : LastDefined l b!"g" 7 := by subst hl; exact findLabel_some (by decide +kernel)
  refine ⟨9, b!"g", ?_, .inl ⟨9, rfl, first 9 (.int 5) (by subst hl; rfl) (fun h => by cases h)⟩, .inl ⟨rfl, fun y m h1 h2 => by omega⟩⟩
  refine Route.on (tr := [.branch .callsub b!"f", .int 1, .branch .bnz b!"g"]) (j := 7) (n := b!"g") (cs := []) (i := 8) (n' := b!"g") ?_
    (lab 7 (.plain .retsub) b!"g" (by subst hl; rfl) (by subst hl; rfl) (fun h => by cases h)) (through 7 _ _ (by subst hl; rfl)) (by subst hl; rfl) .fall
  refine Route.fork (tr := [.branch .callsub b!"f", .int 1]) (j := 5) (n := b!"f") (cs := [(1, b!"(main)")]) (i := 5) (ts := [b!"g"]) ?_
    (first 5 (.branch .bnz b!"g") (by subst hl; rfl) (fun h => by cases h)) (by subst hl; rfl) (.bnz _) (by simp) hg
  refine Route.on (tr := [.branch .callsub b!"f"]) (j := 3) (n := b!"(main)") (cs := [(1, b!"(main)")]) (i := 4) (n' := b!"f") ?_
    (lab 3 (.int 1) b!"f" (by subst hl; rfl) (by subst hl; rfl) (fun h => by cases h)) (through 3 _ _ (by subst hl; rfl)) (by subst hl; rfl) (.next ?_)
  · exact Route.on (tr := []) (j := 0) (n := b!"(main)") (cs := []) (i := 0) (n' := b!"(main)") .start
      (first 0 (.branch .callsub b!"f") (by subst hl; rfl) (fun h => by cases h)) (.inl ⟨rfl, fun y m h1 h2 => by omega⟩)
      (by subst hl; rfl) (.call hf)
  · rintro (⟨_, h'⟩ | _ | _ | _); cases h'

/-- A failed instruction is tried again: `pop` with nothing on the stack, twice. -/
example : (((Vm.new [.plain .pop] 8).step.bind fun v => v.step).map fun w => (w.error.isNone, w.branches.map fun b => (b.line, b.trace))) =
    some (false, [(some 0, [.plain .pop, .plain .pop])]) := by decide +kernel

/-- `return` after `int 1`: the branch is at no line. -/
example : ∃ v b, Clean [.int 1, .plain .returnOp] 8 v ∧ b ∈ v.branches ∧ b.line = none := by
  have h : ((plays (Vm.new [.int 1, .plain .returnOp] 8) [none, none]).bind fun w => w.branches[0]?.map fun b => b.line) = some none := by
    decide +kernel
  obtain ⟨v, h1, h⟩ := Option.bind_eq_some_iff.1 h
  obtain ⟨b, h2, h⟩ := Option.map_eq_some_iff.1 h
  exact ⟨v, b, continues_clean .new (plays_continues (.refl _) h1), List.mem_of_getElem? h2, h⟩

end Teal.Props
