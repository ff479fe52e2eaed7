import Verif.Props.LintText

/-!
# C29, C89: exactly which lines are reported as unreachable
-/

namespace Teal.Props

open Teal Teal.Spec

theorem isDead_iff (l : List Op) (j : Nat) (hj : j ≤ l.length) : isDead l j = true ↔
    ∃ (i : Nat) (t : Op), i < j ∧ l[i]? = some t ∧ t.stopsFlow = true ∧
      ∀ (k : Nat) (n : Bytes), i < k → k < j → l[k]? = some (.label n) → labelUsers n 0 l = [] := by
  induction j with
  | zero =>
    constructor
    · intro h; simp [isDead, deadFlag] at h
    · rintro ⟨i, -, h, -⟩; omega
  | succ j ih =>
    have ih := ih (by omega)
    have ho : l[j]? = some l[j] := List.getElem?_eq_getElem (by omega)
    unfold isDead at ih ⊢
    rw [deadFlag_succ _ _ _ _ _ ho]
    generalize l[j] = o at ho
    generalize hb : deadFlag (fun n => labelUsers n 0 l) false l j = b at ih
    cases b with
    | false =>
      rw [nextDead]
      constructor
      · intro hs
        exact ⟨j, o, by omega, ho, hs, fun k n h1 h2 => by omega⟩
      · rintro ⟨i, t, h1, h2, h3, h4⟩
        by_cases hi : i = j
        · subst hi
          rw [ho] at h2
          injection h2 with h2
          rw [h2]; exact h3
        · exact absurd (ih.2 ⟨i, t, by omega, h2, h3, fun k n a b c => h4 k n a (by omega) c⟩) (by simp)
    | true =>
      obtain ⟨i, t, h1, h2, h3, h4⟩ := ih.1 rfl
      have hold : (∀ n, o = .label n → labelUsers n 0 l = []) → ∃ (i : Nat) (t : Op), i < j + 1 ∧ l[i]? = some t ∧ t.stopsFlow = true ∧
          ∀ (k : Nat) (n : Bytes), i < k → k < j + 1 → l[k]? = some (.label n) → labelUsers n 0 l = [] := by
        intro hn
        refine ⟨i, t, by omega, h2, h3, fun k n a b c => ?_⟩
        by_cases hk : k = j
        · subst hk
          rw [ho] at c
          exact hn n (Option.some.inj c)
        · exact h4 k n a (by omega) c
      by_cases hlab : ∃ n, o = .label n
      · obtain ⟨n, rfl⟩ := hlab
        rw [nextDead, decide_eq_true_iff]
        constructor
        · intro hu
          exact hold (fun m hm => by injection hm with hm; rw [← hm]; exact hu)
        · rintro ⟨i', t', g1, g2, g3, g4⟩
          refine g4 j n ?_ (by omega) ho
          by_contra hc
          have : i' = j := by omega
          subst this
          rw [ho] at g2
          injection g2 with g2
          subst g2
          cases g3
      · have : nextDead (fun n => labelUsers n 0 l) true o = true := by
          cases o <;> first | rfl | exact absurd ⟨_, rfl⟩ hlab
        rw [this]
        exact ⟨fun _ => hold (fun n hn => absurd ⟨n, hn⟩ hlab), fun _ => rfl⟩

/-- **C29** Which lines are reported as unreachable: the instructions behind `b`, `return` and `err`, up to the next label that some
instruction refers to. -/
theorem C29_exact (o : MapOrder) (l : List Op) (j : Nat) :
    ⟨j, .unreachable⟩ ∈ lintErrs o l ↔
      (∃ p, At l j p ∧ ¬ NoOp p) ∧ ∃ i t, i < j ∧ At l i t ∧ Transfer t ∧
        ∀ k n, i < k → k < j → DefinedAt l n k → ¬ ∃ m q, At l m q ∧ Refers q n := by
  have htr : ∀ t : Op, t.stopsFlow = true ↔ Transfer t := by
    intro t
    constructor
    · intro h
      cases t <;> try cases h
      · rename_i k
        cases k <;> first | exact .ret | exact .err | cases h
      · rename_i k n
        cases k <;> first | exact .b n | cases h
    · intro h; cases h <;> rfl
  have hus : ∀ n, labelUsers n 0 l = [] ↔ ¬ ∃ m q, At l m q ∧ Refers q n := by
    intro n
    rw [labelUsers_eq_nil]
    constructor
    · rintro h ⟨m, q, h1, h2⟩
      exact h m q h1 ((mem_labels_iff _ _).2 h2)
    · intro h m q h1 h2
      exact h ⟨m, q, h1, (mem_labels_iff _ _).1 h2⟩
  have hnop : ∀ p : Op, p.isNop = false ↔ ¬ NoOp p := by
    intro p
    rw [← isNop_iff]; simp
  rw [lintErrs_rule]
  constructor
  · intro h
    obtain ⟨-, p, h1, h2, h3⟩ := (mem_lintUnreachable l _).1 h
    obtain ⟨i, t, g1, g2, g3, g4⟩ := (isDead_iff l j (Nat.le_of_lt (List.getElem?_eq_some_iff.1 h1).1)).1 h3
    exact ⟨⟨p, h1, (hnop p).1 h2⟩, i, t, g1, g2, (htr t).1 g3, fun k n a b c => (hus n).1 (g4 k n a b c)⟩
  · rintro ⟨⟨p, h1, h2⟩, i, t, g1, g2, g3, g4⟩
    exact (mem_lintUnreachable l _).2 ⟨rfl, p, h1, (hnop p).2 h2,
      (isDead_iff l j (Nat.le_of_lt (List.getElem?_eq_some_iff.1 h1).1)).2
        ⟨i, t, g1, g2, (htr t).2 g3, fun k n a b c => (hus n).2 (g4 k n a b c)⟩⟩

/-- An unused label does not make the code behind it reachable. -/
example : ⟨2, .unreachable⟩ ∈ lintErrs sampleOrder [.plain .err, .label b!"x", .plain .pop] :=
  (C29_exact _ _ _).2 ⟨⟨.plain .pop, rfl, fun h => by cases h⟩, 0, .plain .err, by decide, rfl, .err, fun k n h1 h2 h3 => by
    rintro ⟨m, q, hm, hr⟩
    match m, hm with
    | 0, hm => cases hm; cases hr
    | 1, hm => cases hm; cases hr
    | 2, hm => cases hm; cases hr⟩

/-- A label that is used does. -/
example : ⟨2, .unreachable⟩ ∉ lintErrs sampleOrder [.plain .err, .label b!"x", .plain .pop, .branch .bnz b!"x"] := by decide +kernel

/-- **C89** On which lines of a text that is the program `os` code is reported as unreachable. -/
theorem C89_unreachable_exact (env : Env) (src : Bytes) (os : List Op) (r : ProcessResult)
    (hp : Program env.addrOk 1 (wordLines (tokens src)) os) (hr : process env src = some r) (k : Nat) :
    Reported r .unreachable k ↔
      (∃ p, At os k p ∧ ¬ NoOp p) ∧ ∃ i t, i < k ∧ At os i t ∧ Transfer t ∧
        ∀ j n, i < j → j < k → DefinedAt os n j → ¬ ∃ m q, At os m q ∧ Refers q n := by
  rw [reported_iff hp hr]
  exact C29_exact env.maps os k

end Teal.Props
