import Verif.Spec.Fatal
import Verif.Props.Dap

/-!
# C58: exactly which requests crash the debug adapter
-/

namespace Teal.Props

open Teal Teal.Spec Teal.Dap

theorem slots_none_iff {α : Type} (l : List α) (s e : Int) :
    slots l s e = none ↔ ∃ i : Int, s ≤ i ∧ i < e ∧ (i < 0 ∨ l.length ≤ i) := by
  unfold slots
  constructor
  · intro h
    split at h
    · cases h
    · split at h
      · exact ⟨s, by omega, by omega, .inl (by omega)⟩
      · split at h
        · exact ⟨e - 1, by omega, by omega, .inr (by omega)⟩
        · cases h
  · rintro ⟨i, h1, h2, h3⟩
    rw [if_neg (by omega)]
    split
    · rfl
    · rw [if_pos (by omega)]

theorem slots_none {α : Type} (a : VarArgs) (l : List α) :
    slots l (bounds a l.length).1 (bounds a l.length).2 = none ↔ NoSlice a l.length := by
  rw [slots_none_iff]
  unfold NoSlice bounds
  cases a.count <;> rfl

theorem branchVars_none (v : Vm) (b : VmBranch) (a : VarArgs) (i : Int) : branchVars v b a i = none ↔
    (i = 2 ∧ NoSlice a v.scratch.length) ∨ (i = 3 ∧ NoSlice a b.trace.length) := by
  unfold branchVars
  split
  · subst_vars; simp
  · split
    · subst_vars; simp
    · split
      · subst_vars
        rw [Option.map_eq_none_iff, slots_none]
        simp
      · split
        · subst_vars
          rw [Option.map_eq_none_iff, slots_none]
          simp
        · simp [*]

theorem varsLoop_none (v : Vm) (a : VarArgs) (f i : Int) (bs : List VmBranch) : varsLoop v a f i bs = none ↔
    ∃ b ∈ bs, (b.id : Int) = f ∧ ((i = 2 ∧ NoSlice a v.scratch.length) ∨ (i = 3 ∧ NoSlice a b.trace.length)) := by
  induction bs with
  | nil => simp [varsLoop]
  | cons b bs ih =>
    rw [varsLoop]
    simp only [List.exists_mem_cons_iff]
    split
    · rename_i hid
      have h1 := branchVars_none v b a i
      cases hv : branchVars v b a i with
      | none =>
        rw [hv] at h1
        exact ⟨fun _ => .inl ⟨hid, h1.1 rfl⟩, fun _ => rfl⟩
      | some vs =>
        rw [hv] at h1
        dsimp only
        rw [Option.map_eq_none_iff, ih]
        constructor
        · exact .inr
        · rintro (⟨-, h2⟩ | h2)
          · cases h1.2 h2
          · exact h2
    · rename_i hid
      rw [ih]
      constructor
      · exact .inr
      · rintro (⟨h2, -⟩ | h2)
        · exact absurd h2 hid
        · exact h2

theorem checkBreakpoints_none (l : List Op) (lns : List Int) : Vm.checkBreakpoints l lns = none ↔ ∃ ln ∈ lns, ln < 0 := by
  induction lns with
  | nil => simp [Vm.checkBreakpoints]
  | cons ln lns ih =>
    simp only [List.exists_mem_cons_iff, ← ih]
    rw [Vm.checkBreakpoints]
    split
    · constructor
      · exact .inr
      · rintro (h | h)
        · omega
        · exact h
    · split
      · exact ⟨fun _ => .inl (by assumption), fun _ => rfl⟩
      · rw [List.getElem?_eq_getElem (by omega)]
        dsimp only
        rw [Option.map_eq_none_iff]
        constructor
        · exact .inr
        · rintro (h | h)
          · omega
          · exact h

/-- **C58** (exactly).  A message crashes the adapter if and only if it is one of those described by `Fatal`. -/
theorem C58_exact {env : Env} {d : Dbg} {m : Msg} {r : Outcome} (h : Handles env d m r) :
    r.next = none ↔ Fatal env d m.cmd := by
  cases h with
  | continue_ a h1 h2 hr h =>
    rename_i mc w
    rw [h1]
    have key : Fatal env d (.continue_ a) ↔ a = none ∧ w.error = none ∧ w.triggered ≠ [] := by
      constructor
      · rintro ⟨ha, mc', w', hm, hr', he, ht⟩
        rw [h2] at hm
        cases hm
        rw [C36_deterministic hr hr']
        exact ⟨ha, he, ht⟩
      · rintro ⟨ha, he, ht⟩
        exact ⟨ha, mc, w, h2, hr, he, ht⟩
    rw [key]
    cases h with
    | failed e he => exact ⟨(by intro hn; cases hn), (by rintro ⟨-, h3, -⟩; rw [he] at h3; cases h3)⟩
    | crashed he ht ha => exact ⟨fun _ => ⟨ha, he, ht⟩, fun _ => rfl⟩
    | hit t th he ha ht _ => exact ⟨(by intro hn; cases hn), (by rintro ⟨h3, -, -⟩; rw [ha] at h3; cases h3)⟩
    | ended he ht hb => exact ⟨(by intro hn; cases hn), (by rintro ⟨-, -, h3⟩; exact absurd ht h3)⟩
    | running he ht hb => exact ⟨(by intro hn; cases hn), (by rintro ⟨-, -, h3⟩; exact absurd ht h3)⟩
  | plain hnc h =>
    obtain ⟨seq, cmd⟩ := m
    dsimp only at hnc ⊢
    cases cmd with
    | «variables» args =>
      cases args with
      | none => cases h; exact ⟨fun _ => .inl rfl, fun _ => rfl⟩
      | some a =>
        have key : «variables» d.vm a = none ↔ Fatal env d (.variables (some a)) := by
          unfold «variables» Fatal
          split
          · rename_i hpos
            cases hm : d.vm with
            | none => simp
            | some mc =>
              dsimp only
              rw [varsLoop_none]
              constructor
              · rintro ⟨b, hb, hid, h1⟩
                refine .inr ⟨a, mc, b, rfl, rfl, hb, ?_⟩
                rcases h1 with ⟨h1, h2⟩ | ⟨h1, h2⟩
                · exact .inl ⟨by omega, h2⟩
                · exact .inr ⟨by omega, h2⟩
              · rintro (h1 | ⟨a', mc', b, ha, hmc, hb, h1⟩)
                · cases h1
                · cases ha
                  cases hmc
                  rcases h1 with ⟨h1, h2⟩ | ⟨h1, h2⟩
                  · exact ⟨b, hb, by omega, .inl ⟨by omega, h2⟩⟩
                  · exact ⟨b, hb, by omega, .inr ⟨by omega, h2⟩⟩
          · rename_i hpos
            simp only [reduceCtorEq, false_iff]
            rintro (h1 | ⟨a', mc', b, ha, hmc, hb, h1⟩)
            · cases h1
            · cases ha
              rcases h1 with ⟨h1, h2⟩ | ⟨h1, h2⟩ <;> omega
        rw [← key]
        unfold Dbg.handle at h
        dsimp only at h
        split at h
        · cases h; simp [*]
        · rename_i vs hv
          cases h
          rw [hv]
          exact ⟨(by intro hn; cases hn), (by intro hn; cases hn)⟩
    | setBreakpoints args =>
      unfold Dbg.handle at h
      dsimp only at h
      unfold Fatal
      cases hm : d.vm with
      | none =>
        rw [hm] at h
        cases h
        exact ⟨(by intro hn; cases hn), fun hf => absurd rfl hf.1⟩
      | some mc =>
        rw [hm] at h
        dsimp only at h
        cases args with
        | none => cases h; exact ⟨fun _ => ⟨by simp, .inl rfl⟩, fun _ => rfl⟩
        | some x =>
          obtain ⟨src, lns⟩ := x
          dsimp only at h
          have key : mc.tvm.setBreakpoints (lns.map (· - d.lz)) = none ↔ ∃ ln ∈ lns, ln < d.lz := by
            unfold Vm.setBreakpoints
            rw [Option.map_eq_none_iff, checkBreakpoints_none]
            constructor
            · rintro ⟨ln, hin, hlt⟩
              obtain ⟨x, hx, rfl⟩ := List.mem_map.1 hin
              exact ⟨x, hx, by omega⟩
            · rintro ⟨ln, hin, hlt⟩
              exact ⟨_, List.mem_map_of_mem hin, by omega⟩
          cases hb : mc.tvm.setBreakpoints (lns.map (· - d.lz)) with
          | none =>
            rw [hb] at h
            cases h
            obtain ⟨ln, h1, h2⟩ := key.1 hb
            exact ⟨fun _ => ⟨by simp, .inr ⟨src, lns, ln, rfl, h1, h2⟩⟩, fun _ => rfl⟩
          | some w =>
            rw [hb] at h
            cases h
            refine ⟨(by intro hn; cases hn), ?_⟩
            rintro ⟨-, h1 | ⟨src', lns', ln, h1, h2, h3⟩⟩
            · cases h1
            · cases h1
              rw [key.2 ⟨ln, h2, h3⟩] at hb
              cases hb
    | launch args file =>
      cases args with
      | none => cases h; exact ⟨fun _ => .inl rfl, fun _ => rfl⟩
      | some name =>
        cases file with
        | none =>
          cases h
          refine ⟨(by intro hn; cases hn), ?_⟩
          rintro (h1 | ⟨src, h1, -⟩) <;> cases h1
        | some src =>
          unfold Dbg.handle at h
          dsimp only at h
          split at h
          · rename_i hp
            cases h
            exact ⟨fun _ => .inr ⟨src, rfl, hp⟩, fun _ => rfl⟩
          · rename_i res hp
            cases h
            refine ⟨(by intro hn; cases hn), ?_⟩
            rintro (h1 | ⟨src, h1, h2⟩)
            · cases h1
            · cases h1
              rw [hp] at h2
              cases h2
    | next args =>
      unfold Dbg.handle at h
      dsimp only at h
      unfold Fatal
      repeat' split at h
      all_goals first
        | (cases h; done)
        | (cases h; exact ⟨fun _ => .inl (by assumption), fun _ => rfl⟩)
        | (cases h; exact ⟨fun _ => .inr rfl, fun _ => rfl⟩)
        | (cases h; refine ⟨(by intro hn; cases hn), ?_⟩; rintro (h1 | h1) <;> simp_all)
    | pause =>
      unfold Dbg.handle at h
      dsimp only at h
      unfold Fatal
      split at h
      · cases h; exact ⟨fun _ => by assumption, fun _ => rfl⟩
      · cases h; refine ⟨(by intro hn; cases hn), ?_⟩; intro h1; simp_all
    | «initialize» args =>
      cases args with
      | none => cases h; exact ⟨fun _ => rfl, fun _ => rfl⟩
      | some a => cases h; exact ⟨(by intro hn; cases hn), (by intro hn; cases hn)⟩
    | scopes args =>
      unfold Fatal
      cases hm : d.vm with
      | none =>
        unfold Dbg.handle at h; simp only [hm] at h; cases h
        exact ⟨(by intro hn; cases hn), fun hf => absurd rfl hf.1⟩
      | some mc =>
        cases args with
        | none =>
          unfold Dbg.handle at h; simp only [hm] at h; cases h
          exact ⟨fun _ => ⟨by simp, rfl⟩, fun _ => rfl⟩
        | some f =>
          unfold Dbg.handle at h; simp only [hm] at h; cases h
          exact ⟨(by intro hn; cases hn), (by rintro ⟨-, h1⟩; cases h1)⟩
    | stackTrace args =>
      unfold Fatal
      cases hm : d.vm with
      | none =>
        unfold Dbg.handle at h; simp only [hm] at h; cases h
        exact ⟨(by intro hn; cases hn), fun hf => absurd rfl hf.1⟩
      | some mc =>
        cases args with
        | none =>
          unfold Dbg.handle at h; simp only [hm] at h; cases h
          exact ⟨fun _ => ⟨by simp, rfl⟩, fun _ => rfl⟩
        | some f =>
          unfold Dbg.handle at h; simp only [hm] at h; cases h
          exact ⟨(by intro hn; cases hn), (by rintro ⟨-, h1⟩; cases h1)⟩
    | plain name =>
      unfold Dbg.handle at h
      dsimp only at h
      split at h <;> cases h <;> exact ⟨(by intro hn; cases hn), False.elim⟩
    | threads => cases h; exact ⟨(by intro hn; cases hn), False.elim⟩
    | continue_ a =>
      cases h
      refine ⟨(by intro hn; cases hn), ?_⟩
      rintro ⟨-, mc, w, hm, -⟩
      rcases hnc with h1 | h1
      · rw [h1] at hm; cases hm
      · exact absurd rfl (h1 a)
    | other => cases h; exact ⟨(by intro hn; cases hn), False.elim⟩

/-- In the state of a session, asking for more of the trace than there is crashes, and looking at all of it
does not. -/
example : ∃ mc b, sampleDbg.2.vm = some mc ∧ mc.tvm.branches = [b] ∧
    Fatal sampleEnv sampleDbg.2 (.variables (some ⟨4 + 10 * b.id, none, some (b.trace.length + 1)⟩)) ∧
    ¬ Fatal sampleEnv sampleDbg.2 (.variables (some ⟨4 + 10 * b.id, none, none⟩)) := by
  obtain ⟨mc, b, hm, hb, -⟩ := sample_state
  refine ⟨mc, b, hm, hb, .inr ⟨_, mc, b, rfl, hm, by rw [hb]; simp, .inr ⟨rfl, b.trace.length, ?_, ?_, .inr ?_⟩⟩, ?_⟩
  · simp
  · simp; omega
  · simp
  · rintro (h | ⟨a, mc', b', h1, h2, h3, h4⟩)
    · cases h
    · cases h1
      rw [hm] at h2
      cases h2
      rw [hb, List.mem_singleton] at h3
      subst h3
      rcases h4 with ⟨h5, -⟩ | ⟨-, i, h5, h6, h7⟩
      · dsimp only at h5; omega
      · simp at h5 h6
        omega

end Teal.Props
