import Verif.Props.OptimizeExact

/-!
# What optimising leaves alone
-/

namespace Teal.Props

open Teal Teal.Spec

theorem without_filter {gone : Nat → Prop} {p : Op → Bool} {a : Nat} {l l' : List Op} (h : Without gone a l l')
    (hp : ∀ i o, l[i]? = some o → p o = true → ¬ gone (a + i)) : l'.filter p = l.filter p := by
  induction h with
  | nil => rfl
  | @keep k o l l' _ _ ih =>
    have := ih fun i o' ho hpo => by
      have := hp (i + 1) o' (by simpa using ho) hpo
      rwa [show k + (i + 1) = k + 1 + i by omega] at this
    rw [List.filter_cons, List.filter_cons, this]
  | @drop k o l l' hg _ ih =>
    have := ih fun i o' ho hpo => by
      have := hp (i + 1) o' (by simpa using ho) hpo
      rwa [show k + (i + 1) = k + 1 + i by omega] at this
    rw [List.filter_cons, this]
    cases hc : p o with
    | false => rfl
    | true => exact absurd hg (hp 0 o rfl hc)

theorem without_mem {gone : Nat → Prop} {a : Nat} {l l' : List Op} (h : Without gone a l l') {o : Op} (ho : o ∈ l') : o ∈ l := by
  induction h with
  | nil => exact ho
  | keep _ _ ih =>
    rcases List.mem_cons.1 ho with rfl | ho
    · exact List.mem_cons_self
    · exact List.mem_cons_of_mem _ (ih ho)
  | drop _ _ ih => exact List.mem_cons_of_mem _ (ih ho)

/-- **C133** (what stays.)  Comments, pragmas and empty lines all stay, in their order, whatever else is removed; so do the labels
something refers to. -/
theorem C133_stays (l : List Op) (p : Op → Bool)
    (hp : ∀ o ∈ l, p o = true → NoOp o ∧ ∀ n, o = .label n → Used l n) :
    (optimize l).filter p = l.filter p := by
  obtain ⟨l₁, l₂, h1, h2, h3⟩ := (C133 l (optimize l)).1 rfl
  have g1 := without_filter h1 (p := p) fun i o ho hpo => by
    rw [Nat.zero_add]
    intro hg
    cases hg with
    | label n h _ _ =>
      have := ho.symm.trans h
      cases this
      rename_i hu _
      exact hu ((hp _ (List.mem_of_getElem? ho) hpo).2 n rfl)
    | retsub h _ =>
      have := ho.symm.trans h
      cases this
      cases (hp _ (List.mem_of_getElem? ho) hpo).1
  have g2 := without_filter h2 (p := p) fun i o ho hpo => by
    rw [Nat.zero_add]
    rintro ⟨⟨o', h, hn⟩, -⟩
    have := ho.symm.trans h
    cases this
    exact hn (hp _ (without_mem h1 (List.mem_of_getElem? ho)) hpo).1
  have g3 := without_filter h3 (p := p) fun i o ho hpo => by
    rw [Nat.zero_add]
    rintro ⟨n, j, h, -⟩
    have := ho.symm.trans h
    cases this
    cases (hp _ (without_mem h1 (without_mem h2 (List.mem_of_getElem? ho))) hpo).1
  rw [g3, g2, g1]

/-- The comment and the labels in use of `wasteful`. -/
example : (optimize wasteful).filter (fun o => o.isNop && o != .label b!"u") = [.label b!"x", .comment b!" c", .label b!"y"] := by
  rw [C133_stays wasteful _ ?_]
  · decide +kernel
  · intro o ho h
    simp only [Bool.and_eq_true, bne_iff_ne] at h
    refine ⟨Classical.byContradiction fun hc => ?_, ?_⟩
    · rw [nop_iff.2 hc] at h; cases h.1
    · rintro n rfl
      simp only [wasteful, List.mem_cons, Op.label.injEq, reduceCtorEq, List.not_mem_nil, or_false, false_or] at ho
      rcases ho with rfl | rfl | rfl
      · exact absurd rfl h.2
      · exact ⟨.branch .bnz b!"x", by simp [wasteful], .branch _ _⟩
      · exact ⟨.branch .b b!"y", by simp [wasteful], .branch _ _⟩

/-- **C133** (what the linter says of what is removed.)  Every line that a step of optimising removes is one the linter reports in the
program the step is given, as an unused label, as unreachable or as a redundant `b`; except for `retsub`. -/
theorem C133_reported (o : MapOrder) (l : List Op) (i : Nat) :
    (Needless l i → At l i (.plain .retsub) ∨ ∃ n, At l i (.label n) ∧ ⟨i, .unusedLabel n⟩ ∈ lintErrs o l) ∧
    (Behind l i → ⟨i, .unreachable⟩ ∈ lintErrs o l) ∧ (Short l i → ⟨i, .bJustBefore⟩ ∈ lintErrs o l) := by
  refine ⟨fun h => ?_, ?_, (C133_lint o l i).1.2⟩
  · cases h with
    | label n h1 h2 _ =>
      refine .inr ⟨n, h1, ((C28_unused_labels o l i n).1).2 ⟨h1, ?_⟩⟩
      rintro ⟨k, p, hp, hr⟩
      exact h2 ⟨p, List.mem_of_getElem? hp, hr⟩
    | retsub h1 _ => exact .inl h1
  · rintro ⟨⟨p, hp, hn⟩, j, hj, ht, hl⟩
    rcases ht with ⟨n, ht⟩ | ht | ht
    · exact C29_unreachable_complete_partial o l j i _ p ht (by constructor) hj hp hn fun k n h1 h2 => hl k n h1 h2
    · exact C29_unreachable_complete_partial o l j i _ p ht (by constructor) hj hp hn fun k n h1 h2 => hl k n h1 h2
    · exact C29_unreachable_complete_partial o l j i _ p ht (by constructor) hj hp hn fun k n h1 h2 => hl k n h1 h2

/-- In `wasteful` it reports an unused label and unreachable code. -/
example (o : MapOrder) : ⟨0, .unusedLabel b!"u"⟩ ∈ lintErrs o wasteful ∧ ⟨4, .unreachable⟩ ∈ lintErrs o wasteful := by
  refine ⟨((C28_unused_labels o _ 0 b!"u").1).2 ⟨rfl, ?_⟩, (C133_reported o wasteful 4).2.1
    ⟨⟨.int 3, rfl, by rintro ⟨⟩⟩, 3, by decide, .inr (.inr rfl), fun x n h h' => by omega⟩⟩
  rintro ⟨k, p, hp, hr⟩
  have := mem_used.2 ⟨p, List.mem_of_getElem? hp, hr⟩
  revert this
  decide +kernel

end Teal.Props
