import Verif.Spec.Optimize
import Verif.Props.OptimizeReach
import Verif.Props.Linter
import Mathlib.Logic.Function.Iterate

/-!
# Exactly what optimising removes
-/

namespace Teal.Props

open Teal Teal.Spec

theorem select_without {gone : Nat → Prop} : ∀ {l : List Op} {k : List Bool} {a : Nat}, k.length = l.length →
    (∀ i o, l[i]? = some o → (k[i]? = some true ∧ ¬ gone (a + i)) ∨ (k[i]? = some false ∧ gone (a + i))) → Without gone a l (select k l) := by
  intro l
  induction l with
  | nil => intro k a hk _; cases k <;> simp [select] <;> exact .nil _
  | cons o os ih =>
    intro k a hk h
    cases k with
    | nil => cases hk
    | cons b k =>
      have ih' := ih (k := k) (a := a + 1) (by simpa using hk) fun i o' ho => by
        have := h (i + 1) o' (by simpa using ho)
        rwa [show a + (i + 1) = a + 1 + i by omega, List.getElem?_cons_succ] at this
      rcases h 0 o rfl with ⟨h1, h2⟩ | ⟨h1, h2⟩
      · cases h1
        exact .keep h2 ih'
      · cases h1
        exact .drop h2 ih'

theorem without_unique {gone : Nat → Prop} {a : Nat} {l l' l'' : List Op} (h : Without gone a l l') (h' : Without gone a l l'') : l' = l'' := by
  induction h generalizing l'' with
  | nil => cases h'; rfl
  | keep h1 _ ih =>
    cases h' with
    | keep _ h2 => rw [ih h2]
    | drop h2 _ => exact absurd h2 h1
  | drop h1 _ ih =>
    cases h' with
    | keep h2 _ => exact absurd h1 h2
    | drop _ h2 => exact ih h2

theorem keepUnused_iff : ∀ {os : List Op}, keepUnused os = true ↔
    ∃ j : Nat, (os[j]? = some (Op.plain .retsub) ∨ ∃ a r, os[j]? = some (Op.u8u8 .proto a r)) ∧ ∀ x < j, ∃ o, os[x]? = some o ∧ NoOp o := by
  intro os
  induction os with
  | nil => simp [keepUnused]
  | cons o os ih =>
    by_cases h1 : o = .plain .retsub
    · subst h1
      exact ⟨fun _ => ⟨0, .inl rfl, fun x hx => by omega⟩, fun _ => by rw [keepUnused]⟩
    by_cases h2 : ∃ a r, o = .u8u8 .proto a r
    · obtain ⟨a, r, rfl⟩ := h2
      exact ⟨fun _ => ⟨0, .inr ⟨a, r, rfl⟩, fun x hx => by omega⟩, fun _ => by rw [keepUnused]⟩
    have he : keepUnused (o :: os) = if o.isNop then keepUnused os else false := by
      rw [keepUnused.eq_def]
      split
      · rename_i h; cases h
      · rename_i h; cases h; exact absurd rfl h1
      · rename_i h; cases h; exact absurd ⟨_, _, rfl⟩ h2
      · rename_i h; cases h; rfl
    rw [he]
    constructor
    · intro h
      by_cases hn : o.isNop = true
      · rw [if_pos hn] at h
        obtain ⟨j, h3, h4⟩ := ih.1 h
        refine ⟨j + 1, by simpa using h3, fun x hx => ?_⟩
        cases x with
        | zero => exact ⟨o, rfl, Classical.byContradiction fun hc => by rw [nop_iff.2 hc] at hn; cases hn⟩
        | succ x => simpa using h4 x (by omega)
      · rw [if_neg hn] at h; cases h
    · rintro ⟨j, h3, h4⟩
      cases j with
      | zero =>
        rcases h3 with h3 | ⟨a, r, h3⟩
        · cases h3; exact absurd rfl h1
        · cases h3; exact absurd ⟨_, _, rfl⟩ h2
      | succ j =>
        obtain ⟨o', h5, h6⟩ := h4 0 (by omega)
        cases h5
        have hn : o.isNop = true := by
          cases hc : o.isNop with
          | true => rfl
          | false => exact absurd h6 (nop_iff.1 hc)
        rw [if_pos hn]
        exact ih.2 ⟨j, by simpa using h3, fun x hx => by simpa using h4 (x + 1) (by omega)⟩

theorem drop_get {l : List Op} {i x : Nat} : (l.drop (i + 1))[x]? = l[i + 1 + x]? := by
  rw [List.getElem?_drop]

theorem keepUnused_before {l : List Op} {i : Nat} : keepUnused (l.drop (i + 1)) = true ↔ BeforeFrame l i := by
  rw [keepUnused_iff]
  constructor
  · rintro ⟨j, h1, h2⟩
    refine ⟨i + 1 + j, by omega, by simpa only [At, drop_get] using h1, fun x hx hx' => ?_⟩
    obtain ⟨o, h3, h4⟩ := h2 (x - (i + 1)) (by omega)
    rw [drop_get, show i + 1 + (x - (i + 1)) = x by omega] at h3
    exact ⟨o, h3, h4⟩
  · rintro ⟨j, h0, h1, h2⟩
    refine ⟨j - (i + 1), ?_, fun x hx => ?_⟩
    · simp only [drop_get, show i + 1 + (j - (i + 1)) = j by omega]
      exact h1
    · obtain ⟨o, h3, h4⟩ := h2 (i + 1 + x) (by omega) (by omega)
      exact ⟨o, by rw [drop_get]; exact h3, h4⟩

theorem maskUnused_get (used : List Bytes) : ∀ {l : List Op} {prev : Option Op} {i : Nat} {o : Op}, l[i]? = some o →
    ∃ b, (maskUnused used prev l)[i]? = some b ∧
      (∀ n, o = .label n → (b = true ↔ n ∈ used ∨ keepUnused (l.drop (i + 1)) = true)) ∧
      (o = .plain .retsub → (b = true ↔ ∃ n ∈ used, (i = 0 ∧ prev = some (.label n)) ∨ ∃ j, i = j + 1 ∧ l[j]? = some (.label n))) ∧
      ((∀ n, o ≠ .label n) → o ≠ .plain .retsub → b = true) := by
  intro l
  induction l with
  | nil => intro prev i o h; simp at h
  | cons a os ih =>
    intro prev i o h
    cases i with
    | zero =>
      simp at h
      subst h
      refine ⟨_, rfl, ?_, ?_, ?_⟩
      · rintro n rfl
        simp only [unusedVerdict, List.drop_succ_cons, List.drop_zero]
        by_cases hc : (used.contains n || keepUnused os) = true
        · rw [if_pos hc]; simpa using hc
        · rw [if_neg hc]; simpa using hc
      · rintro rfl
        unfold unusedVerdict
        dsimp only
        split
        · rename_i n
          by_cases hc : used.contains n = true
          · rw [if_pos hc]; simpa using hc
          · rw [if_neg hc]; simpa using hc
        · rename_i hp
          simp only [Bool.false_eq_true, false_iff]
          rintro ⟨n, hn, ⟨-, h⟩ | ⟨j, h, -⟩⟩
          · exact hp n h
          · omega
      · intro h1 h2
        unfold unusedVerdict
        split
        · exact absurd rfl (h1 _)
        · exact absurd rfl h2
        · rfl
    | succ i =>
      obtain ⟨b, h1, h2, h3, h4⟩ := ih (prev := (unusedVerdict used prev a os).2) (i := i) (o := o) (by simpa using h)
      refine ⟨b, by rw [maskUnused]; simpa using h1, fun n hn => by simpa using h2 n hn, fun ho => ?_, h4⟩
      rw [h3 ho]
      constructor
      · rintro ⟨n, hn, ⟨rfl, hp⟩ | ⟨j, rfl, hj⟩⟩
        · refine ⟨n, hn, .inr ⟨0, rfl, ?_⟩⟩
          subst ho
          have hk : keepUnused os = true := keepUnused_iff.2 ⟨0, .inl (by simpa using h), fun x hx => by omega⟩
          revert hp
          unfold unusedVerdict
          split
          · rw [if_pos (by simp [hk])]
            rintro ⟨⟩; rfl
          · split
            · split
              · intro hp; cases hp
              · rename_i hc
                intro hp
                cases hp
                exact absurd (by simpa using hn) hc
            · intro hp; cases hp
          · rintro ⟨⟩; rfl
        · exact ⟨n, hn, .inr ⟨j + 1, rfl, by simpa using hj⟩⟩
      · rintro ⟨n, hn, ⟨hi, -⟩ | ⟨j, hj, hl⟩⟩
        · omega
        · obtain rfl : i = j := by omega
          cases i with
          | zero =>
            simp at hl
            subst hl
            exact ⟨n, hn, .inl ⟨rfl, unused_prev hn⟩⟩
          | succ i => exact ⟨n, hn, .inr ⟨i, rfl, by simpa using hl⟩⟩

theorem unused_without (l : List Op) : Without (Needless l) 0 l (removeUnused l) := by
  rw [removeUnused, (unused_select _ l none).1]
  refine select_without (unused_select _ l none).2 fun i o ho => ?_
  rw [Nat.zero_add]
  obtain ⟨b, h1, h2, h3, h4⟩ := maskUnused_get (usedLabels l) (prev := none) ho
  have hu : ∀ n, n ∈ usedLabels l ↔ Used l n := fun n => mem_used
  rw [h1]
  cases b with
  | true =>
    refine .inl ⟨rfl, fun hg => ?_⟩
    cases hg with
    | label n h5 h6 h7 =>
      have := ho.symm.trans h5
      cases this
      rcases (h2 n rfl).1 rfl with h | h
      · exact h6 ((hu n).1 h)
      · exact h7 (keepUnused_before.1 h)
    | retsub h5 h6 =>
      have := ho.symm.trans h5
      cases this
      obtain ⟨n, hn, ⟨-, h⟩ | ⟨j, h, hj⟩⟩ := (h3 rfl).1 rfl
      · cases h
      · exact h6 j n h hj ((hu n).1 hn)
  | false =>
    refine .inr ⟨rfl, ?_⟩
    by_cases hl : ∃ n, o = .label n
    · obtain ⟨n, rfl⟩ := hl
      refine .label n ho (fun h => ?_) fun h => ?_
      · cases (h2 n rfl).2 (.inl ((hu n).2 h))
      · cases (h2 n rfl).2 (.inr (keepUnused_before.2 h))
    by_cases hr : o = .plain .retsub
    · subst hr
      refine .retsub ho fun j n hj hd hn => ?_
      cases (h3 rfl).2 ⟨n, (hu n).2 hn, .inr ⟨j, hj, hd⟩⟩
    · cases h4 (fun n hn => hl ⟨n, hn⟩) hr

theorem flagAt_iff {l : List Op} : ∀ {i : Nat}, i ≤ l.length → (flagAt false l i = true ↔
    ∃ j o, j < i ∧ At l j o ∧ o.cuts = true ∧ ∀ x n, j < x → x < i → ¬ At l x (.label n)) := by
  intro i
  induction i with
  | zero => intro _; simp [flagAt]
  | succ i ih =>
    intro hi
    have ho : l[i]? = some l[i] := List.getElem?_eq_getElem (by omega)
    rw [flagAt_succ ho, afterNext]
    have ih := ih (by omega)
    cases hf : flagAt false l i with
    | true =>
      simp only [if_true]
      obtain ⟨j, o, h1, h2, h3, h4⟩ := ih.1 hf
      constructor
      · intro h
        refine ⟨j, o, by omega, h2, h3, fun x n hx hx' => ?_⟩
        by_cases hxi : x = i
        · subst hxi
          intro hl
          have he := ho.symm.trans hl
          rw [Option.some.injEq] at he
          rw [he] at h
          cases h
        · exact h4 x n hx (by omega)
      · rintro ⟨j, o, h1, h2, h3, h4⟩
        by_cases hji : j = i
        · subst hji
          have := ho.symm.trans h2
          simp at this
          rw [this]
          cases o <;> first | rfl | (cases h3; done)
        · cases hc : l[i].isLabel with
          | false => rfl
          | true =>
            obtain ⟨n, hn⟩ := isLabel_iff.1 hc
            exact absurd (by rw [At, ho, hn]) (h4 i n (by omega) (by omega))
    | false =>
      simp only [Bool.false_eq_true, if_false]
      constructor
      · exact fun h => ⟨i, _, by omega, ho, h, fun x n hx hx' => by omega⟩
      · rintro ⟨j, o, h1, h2, h3, h4⟩
        by_cases hji : j = i
        · subst hji
          have := ho.symm.trans h2
          simp at this
          rw [this]; exact h3
        · have := ih.2 ⟨j, o, by omega, h2, h3, fun x n hx hx' => h4 x n hx (by omega)⟩
          rw [hf] at this
          cases this

theorem cuts_iff {o : Op} : o.cuts = true ↔ (∃ n, o = .branch .b n) ∨ o = .plain .returnOp ∨ o = .plain .err := by
  constructor
  · intro h
    unfold Op.cuts at h
    split at h
    · exact .inl ⟨_, rfl⟩
    · exact .inr (.inl rfl)
    · exact .inr (.inr rfl)
    · cases h
  · rintro (⟨n, rfl⟩ | rfl | rfl) <;> rfl

theorem after_without (l : List Op) : Without (Behind l) 0 l (removeOpsAfterUnconditionalBranch l) := by
  rw [removeOpsAfterUnconditionalBranch, (after_select l false).1]
  refine select_without (after_select l false).2 fun i o ho => ?_
  rw [Nat.zero_add, maskAfter_get ho]
  have hi := (List.getElem?_eq_some_iff.1 ho).1
  have hf := flagAt_iff (l := l) (i := i) (by omega)
  have hb : Behind l i ↔ flagAt false l i = true ∧ o.isNop = false := by
    rw [hf, nop_iff]
    constructor
    · rintro ⟨⟨o', h1, h2⟩, j, h3, h4, h5⟩
      have := ho.symm.trans h1
      cases this
      refine ⟨?_, h2⟩
      rcases h4 with ⟨n, h4⟩ | h4 | h4
      · exact ⟨j, _, h3, h4, rfl, h5⟩
      · exact ⟨j, _, h3, h4, rfl, h5⟩
      · exact ⟨j, _, h3, h4, rfl, h5⟩
    · rintro ⟨⟨j, o', h1, h2, h3, h4⟩, h5⟩
      refine ⟨⟨o, ho, h5⟩, j, h1, ?_, h4⟩
      rcases cuts_iff.1 h3 with ⟨n, rfl⟩ | rfl | rfl
      · exact .inl ⟨n, h2⟩
      · exact .inr (.inl h2)
      · exact .inr (.inr h2)
  have hl : o.isLabel = true → o.isNop = true := by
    intro h
    obtain ⟨n, rfl⟩ := isLabel_iff.1 h
    rfl
  rw [hb]
  cases h1 : flagAt false l i <;> cases h2 : o.isNop <;> cases h3 : o.isLabel <;> simp_all

theorem targetFollows_iff (t : Bytes) : ∀ {os : List Op}, targetFollows t os = true ↔
    ∃ j : Nat, os[j]? = some (.label t) ∧ ∀ x < j, ∃ o, os[x]? = some o ∧ NoOp o ∧ ∀ m, o ≠ .label m := by
  intro os
  induction os with
  | nil => simp [targetFollows]
  | cons o os ih =>
    rw [targetFollows.eq_def]
    dsimp only
    split
    · rename_i n
      constructor
      · intro h
        simp at h; subst h
        exact ⟨0, rfl, fun x hx => by omega⟩
      · rintro ⟨j, h1, h2⟩
        cases j with
        | zero => cases h1; simp
        | succ j =>
          obtain ⟨o, h3, -, h4⟩ := h2 0 (by omega)
          cases h3
          exact absurd rfl (h4 n)
    · rename_i hno
      constructor
      · intro h
        by_cases hn : o.isNop = true
        · rw [if_pos hn] at h
          obtain ⟨j, h1, h2⟩ := ih.1 h
          refine ⟨j + 1, by simpa using h1, fun x hx => ?_⟩
          cases x with
          | zero => exact ⟨o, rfl, Classical.byContradiction (fun hc => by rw [nop_iff.2 hc] at hn; cases hn), fun m hm => hno m hm⟩
          | succ x => simpa using h2 x (by omega)
        · rw [if_neg hn] at h; cases h
      · rintro ⟨j, h1, h2⟩
        cases j with
        | zero => cases h1; exact absurd rfl (hno t)
        | succ j =>
          obtain ⟨o', h3, h4, -⟩ := h2 0 (by omega)
          cases h3
          have hn : o.isNop = true := by
            cases hc : o.isNop with
            | true => rfl
            | false => exact absurd h4 (nop_iff.1 hc)
          rw [if_pos hn]
          exact ih.2 ⟨j, by simpa using h1, fun x hx => by simpa using h2 (x + 1) (by omega)⟩

theorem jump_without (l : List Op) : Without (Short l) 0 l (removeBJustBeforeItsTargetLabel l) := by
  rw [(jump_select l).1]
  refine select_without (jump_select l).2 fun i o ho => ?_
  rw [Nat.zero_add, maskJump_get ho]
  have hs : Short l i ↔ jumpVerdict o (l.drop (i + 1)) = false := by
    constructor
    · rintro ⟨n, j, h1, h2, h3, h4⟩
      have := ho.symm.trans h1
      cases this
      simp only [jumpVerdict, Bool.not_eq_eq_eq_not, Bool.not_false]
      refine (targetFollows_iff n).2 ⟨j - (i + 1), ?_, fun x hx => ?_⟩
      · rw [drop_get, show i + 1 + (j - (i + 1)) = j by omega]; exact h3
      · obtain ⟨o, h5, h6⟩ := h4 (i + 1 + x) (by omega) (by omega)
        exact ⟨o, by rw [drop_get]; exact h5, h6⟩
    · intro h
      unfold jumpVerdict at h
      split at h
      · rename_i t
        obtain ⟨j, h1, h2⟩ := (targetFollows_iff t).1 (by simpa using h)
        refine ⟨t, i + 1 + j, ho, by omega, by rw [drop_get] at h1; exact h1, fun x hx hx' => ?_⟩
        obtain ⟨o, h3, h4⟩ := h2 (x - (i + 1)) (by omega)
        rw [drop_get, show i + 1 + (x - (i + 1)) = x by omega] at h3
        exact ⟨o, h3, h4⟩
      · cases h
  rw [hs]
  cases jumpVerdict o (l.drop (i + 1)) <;> simp

/-- **C133** (what is removed.)  Optimising removes, in this order and nothing else: the labels nothing refers to and the
`retsub` that do not directly follow a label in use; what is behind `b`, `return` and `err` up to the next label; and the `b`
to the label that comes next. -/
theorem C133 (l l' : List Op) : optimize l = l' ↔
    ∃ l₁ l₂, Without (Needless l) 0 l l₁ ∧ Without (Behind l₁) 0 l₁ l₂ ∧ Without (Short l₂) 0 l₂ l' := by
  have h1 := unused_without l
  have h2 := after_without (removeUnused l)
  have h3 := jump_without (removeOpsAfterUnconditionalBranch (removeUnused l))
  constructor
  · rintro rfl
    unfold optimize
    rw [merge_id]
    exact ⟨_, _, h1, h2, h3⟩
  · rintro ⟨l₁, l₂, g1, g2, g3⟩
    cases without_unique h1 g1
    cases without_unique h2 g2
    cases without_unique h3 g3
    unfold optimize
    rw [merge_id]

theorem without_id {gone : Nat → Prop} {l : List Op} {a : Nat} (h : ∀ i, ¬ gone i) : Without gone a l l := by
  induction l generalizing a with
  | nil => exact .nil _
  | cons o os ih => exact .keep (h _) ih

theorem without_none {gone : Nat → Prop} {l l' : List Op} {a : Nat} (h : Without gone a l l') :
    l'.length ≤ l.length ∧ (l'.length = l.length → l' = l ∧ ∀ i, i < l.length → ¬ gone (a + i)) := by
  induction h with
  | nil => simp
  | @keep k o l l' h1 _ ih =>
    refine ⟨by simp; exact ih.1, fun he => ?_⟩
    obtain ⟨h2, h3⟩ := ih.2 (by simpa using he)
    refine ⟨by rw [h2], fun i hi => ?_⟩
    cases i with
    | zero => exact h1
    | succ i =>
      have := h3 i (by simpa using hi)
      rwa [show k + (i + 1) = k + 1 + i by omega]
  | drop _ _ ih =>
    refine ⟨by simp; omega, fun he => ?_⟩
    simp at he
    omega

/-- Each kind occurs: in `wasteful` the first line is a label nothing refers to, and the fifth is behind `err`; the seventh is a `b` to the
next label. -/
example : Needless wasteful 0 ∧ Behind wasteful 4 ∧ Short wasteful 6 ∧ ¬ Needless wasteful 5 := by
  refine ⟨.label b!"u" rfl ?_ ?_, ⟨⟨.int 3, rfl, by rintro ⟨⟩⟩, 3, by decide, .inr (.inr rfl), fun x n h h' => by omega⟩,
    ⟨b!"y", 8, rfl, by decide, rfl, fun x h h' => ?_⟩, fun h => ?_⟩
  · rintro ⟨o, ho, hr⟩
    have := mem_used.2 ⟨o, ho, hr⟩
    revert this
    decide +kernel
  · intro h
    have := keepUnused_before.2 h
    revert this
    decide +kernel
  · obtain rfl : x = 7 := by omega
    exact ⟨.comment b!" c", rfl, .comment _, by rintro m ⟨⟩⟩
  · cases h with
    | label n h1 h2 _ => cases h1; exact h2 (mem_used.1 (by decide +kernel))
    | retsub h1 _ => cases h1

/-- **C133** (when nothing is removed.)  Optimising never makes a program longer, and leaves it as it is exactly if there is nothing
to remove in it. -/
theorem C133_optimal (l : List Op) : (optimize l).length ≤ l.length ∧
    (optimize l = l ↔ ∀ i, ¬ Needless l i ∧ ¬ Behind l i ∧ ¬ Short l i) := by
  obtain ⟨l₁, l₂, h1, h2, h3⟩ := (C133 l (optimize l)).1 rfl
  have g1 := without_none h1
  have g2 := without_none h2
  have g3 := without_none h3
  refine ⟨by omega, fun he => ?_, fun h => ?_⟩
  · have hlen : (optimize l).length = l.length := by rw [he]
    obtain ⟨e3, n3⟩ := g3.2 (by omega)
    obtain ⟨e2, n2⟩ := g2.2 (by omega)
    obtain ⟨e1, n1⟩ := g1.2 (by omega)
    subst e1
    subst e2
    intro i
    by_cases hi : i < l₂.length
    · have a := n1 i hi
      have b := n2 i hi
      have c := n3 i hi
      rw [Nat.zero_add] at a b c
      exact ⟨a, b, c⟩
    · have no : ∀ o, ¬ At l₂ i o := fun o ho => hi (List.getElem?_eq_some_iff.1 ho).1
      exact ⟨fun h => by cases h with
        | label n h => exact no _ h
        | retsub h => exact no _ h, fun h => no _ h.1.choose_spec.1, fun ⟨n, j, h, _⟩ => no _ h⟩
  · exact (C133 l l).2 ⟨l, l, without_id fun i => (h i).1, without_id fun i => (h i).2.1, without_id fun i => (h i).2.2⟩

/-- A program with nothing to remove, and one with something. -/
example : optimize [.int 1, .branch .bnz b!"x", .plain .err, .label b!"x", .int 2] =
      [.int 1, .branch .bnz b!"x", .plain .err, .label b!"x", .int 2] ∧ optimize wasteful ≠ wasteful := by decide +kernel

/-- A second time more may be removed: the label `x` is in use until the jump to it is gone. -/
theorem C133_again : ∃ l, optimize (optimize l) ≠ optimize l :=
  ⟨[.branch .b b!"x", .label b!"x", .int 1], by decide +kernel⟩

/-- **C133** (repeating it ends.)  Optimising again and again comes to a program with nothing to remove after at most as many times as the
program has lines. -/
theorem C133_ends (l : List Op) : ∃ n ≤ l.length, optimize (optimize^[n] l) = optimize^[n] l ∧
    ∀ i, ¬ Needless (optimize^[n] l) i ∧ ¬ Behind (optimize^[n] l) i ∧ ¬ Short (optimize^[n] l) i := by
  suffices h : ∀ k (l : List Op), l.length ≤ k → ∃ n ≤ k, optimize (optimize^[n] l) = optimize^[n] l by
    obtain ⟨n, h1, h2⟩ := h _ l (Nat.le_refl _)
    exact ⟨n, h1, h2, (C133_optimal _).2.1 h2⟩
  intro k
  induction k with
  | zero =>
    intro l hl
    refine ⟨0, Nat.le_refl _, ?_⟩
    have : l = [] := List.length_eq_zero_iff.1 (by omega)
    subst this
    exact List.length_eq_zero_iff.1 (Nat.le_zero.1 (C133_optimal []).1)
  | succ k ih =>
    intro l hl
    by_cases he : optimize l = l
    · exact ⟨0, by omega, he⟩
    · have hlt : (optimize l).length ≤ k := by
        have h1 := (C133_optimal l).1
        rcases Nat.lt_or_ge (optimize l).length l.length with h | h
        · omega
        · refine absurd ?_ he
          obtain ⟨l₁, l₂, g1, g2, g3⟩ := (C133 l (optimize l)).1 rfl
          have e1 := without_none g1
          have e2 := without_none g2
          have e3 := without_none g3
          rw [(e3.2 (by omega)).1, (e2.2 (by omega)).1, (e1.2 (by omega)).1]
      obtain ⟨n, h1, h2⟩ := ih _ hlt
      exact ⟨n + 1, by omega, h2⟩

/-- Twice is enough for the program above. -/
example : optimize^[2] [.branch .b b!"x", .label b!"x", .int 1] = [.int 1] ∧ optimize [.int 1] = [.int 1] := by decide +kernel

theorem removeAfter_length (f : Bool) (l : List Op) : (removeAfterLoop f l).length ≤ l.length := by
  induction l generalizing f with
  | nil => cases f <;> simp [removeAfterLoop]
  | cons o os ih =>
    have h1 := ih true
    have h2 := ih false
    have h3 := ih o.cuts
    cases f with
    | false => simp [removeAfterLoop]; omega
    | true =>
      rw [removeAfterLoop]
      split
      · simp; omega
      · split <;> simp <;> omega

theorem removeAfter_false {l : List Op} (h : removeAfterLoop true l = l) : removeAfterLoop false l = l := by
  induction l with
  | nil => rfl
  | cons o os ih =>
    rw [removeAfterLoop] at h
    rw [removeAfterLoop]
    split at h
    · rename_i hl
      obtain ⟨n, rfl⟩ := isLabel_iff.1 hl
      exact h
    · split at h
      · rename_i hn
        have hc : o.cuts = false := by
          cases hc : o.cuts with
          | false => rfl
          | true => rcases cuts_iff.1 hc with ⟨n, rfl⟩ | rfl | rfl <;> cases hn
        rw [hc, ih (by injection h)]
      · have := removeAfter_length true os
        rw [h] at this
        simp at this
        omega

theorem removeAfter_twice (l : List Op) (f : Bool) : removeAfterLoop f (removeAfterLoop f l) = removeAfterLoop f l := by
  induction l generalizing f with
  | nil => cases f <;> rfl
  | cons o os ih =>
    cases f with
    | false => rw [removeAfterLoop, removeAfterLoop, ih]
    | true =>
      rw [removeAfterLoop]
      split
      · rename_i h; rw [removeAfterLoop, if_pos h, ih]
      · rename_i h
        split
        · rename_i h'; rw [removeAfterLoop, if_neg h, if_pos h', ih]
        · exact ih true

/-- What stands directly behind an instruction the pass cuts after. -/
theorem fixed_true {o : Op} {os : List Op} (h : removeAfterLoop true (o :: os) = o :: os) :
    (o.isLabel = true ∧ removeAfterLoop false os = os) ∨ (o.isLabel = false ∧ o.isNop = true ∧ removeAfterLoop true os = os) := by
  rw [removeAfterLoop] at h
  split at h
  · rename_i hl; exact .inl ⟨hl, by injection h⟩
  · rename_i hl
    split at h
    · rename_i hn; exact .inr ⟨by simpa using hl, hn, by injection h⟩
    · have := removeAfter_length true os
      rw [h] at this
      simp at this
      omega

theorem removeB_other {o : Op} {os : List Op} (h : ∀ n, o ≠ .branch .b n) :
    removeBJustBeforeItsTargetLabel (o :: os) = o :: removeBJustBeforeItsTargetLabel os := by
  rw [removeBJustBeforeItsTargetLabel.eq_def]
  dsimp only
  split
  · exact absurd rfl (h _)
  · rfl

theorem removeB_jump {t : Bytes} {os : List Op} : removeBJustBeforeItsTargetLabel (.branch .b t :: os) =
    if targetFollows t os then removeBJustBeforeItsTargetLabel os else .branch .b t :: removeBJustBeforeItsTargetLabel os := by
  rw [removeBJustBeforeItsTargetLabel.eq_def]

theorem jump_after {l : List Op} {f : Bool} (h : removeAfterLoop f l = l) :
    removeAfterLoop f (removeBJustBeforeItsTargetLabel l) = removeBJustBeforeItsTargetLabel l := by
  induction l generalizing f with
  | nil => exact h
  | cons o os ih =>
    cases f with
    | false =>
      rw [removeAfterLoop] at h
      have h' : removeAfterLoop o.cuts os = os := by injection h
      by_cases hb : ∃ t, o = .branch .b t
      · obtain ⟨t, rfl⟩ := hb
        rw [removeB_jump]
        split
        · exact removeAfter_false (ih h')
        · rw [removeAfterLoop, ih h']
      · rw [removeB_other fun n hn => hb ⟨n, hn⟩, removeAfterLoop, ih h']
    | true =>
      rcases fixed_true h with ⟨hl, h'⟩ | ⟨hl, hn, h'⟩
      · rw [removeB_other (by rintro n rfl; cases hl), removeAfterLoop, if_pos hl, ih h']
      · rw [removeB_other (by rintro n rfl; cases hn), removeAfterLoop, if_neg (by simp [hl]), if_pos hn, ih h']

theorem follows_after {t : Bytes} {os : List Op} (h : removeAfterLoop true os = os) :
    targetFollows t (removeBJustBeforeItsTargetLabel os) = targetFollows t os := by
  induction os with
  | nil => rfl
  | cons o os ih =>
    rcases fixed_true h with ⟨hl, h'⟩ | ⟨hl, hn, h'⟩
    · obtain ⟨n, rfl⟩ := isLabel_iff.1 hl
      rw [removeB_other (by rintro n ⟨⟩)]
      rfl
    · rw [removeB_other (by rintro n rfl; cases hn)]
      have key : ∀ os, targetFollows t (o :: os) = targetFollows t os := by
        intro os
        rw [targetFollows.eq_def]
        dsimp only
        split
        · cases hl
        · rw [if_pos hn]
      rw [key, key, ih h']

theorem jump_twice {l : List Op} {f : Bool} (h : removeAfterLoop f l = l) :
    removeBJustBeforeItsTargetLabel (removeBJustBeforeItsTargetLabel l) = removeBJustBeforeItsTargetLabel l := by
  induction l generalizing f with
  | nil => rfl
  | cons o os ih =>
    have h' : ∃ g, removeAfterLoop g os = os := by
      cases f with
      | false => rw [removeAfterLoop] at h; exact ⟨_, by injection h⟩
      | true =>
        rcases fixed_true h with ⟨-, h'⟩ | ⟨-, -, h'⟩
        · exact ⟨_, h'⟩
        · exact ⟨_, h'⟩
    obtain ⟨g, h'⟩ := h'
    by_cases hb : ∃ t, o = .branch .b t
    · obtain ⟨t, rfl⟩ := hb
      rw [removeB_jump]
      split
      · exact ih h'
      · rename_i hf
        have hos : removeAfterLoop true os = os := by
          cases f with
          | false => rw [removeAfterLoop] at h; injection h
          | true => rcases fixed_true h with ⟨hl, -⟩ | ⟨-, hn, -⟩ <;> contradiction
        rw [removeB_jump, follows_after hos, if_neg hf, ih h']
    · rw [removeB_other fun n hn => hb ⟨n, hn⟩, removeB_other fun n hn => hb ⟨n, hn⟩, ih h']

/-- **C133** (what is left.)  In an optimised program there is nothing behind `b`, `return` or `err` before the next label, and no `b` to
the label that comes next. -/
theorem C133_tidy (l : List Op) : ∀ i, ¬ Behind (optimize l) i ∧ ¬ Short (optimize l) i := by
  have h0 : ∀ l' : List Op, l' = removeOpsAfterUnconditionalBranch (removeUnused l) → removeAfterLoop false l' = l' := by
    rintro _ rfl
    exact removeAfter_twice _ _
  have he : optimize l = removeBJustBeforeItsTargetLabel (removeOpsAfterUnconditionalBranch (removeUnused l)) := by
    unfold optimize
    rw [merge_id]
  have none : ∀ {gone : Nat → Prop} {l l' : List Op}, Without gone 0 l l' → l' = l → (∀ i, gone i → i < l.length) → ∀ i, ¬ gone i := by
    intro gone l l' h e hl i hg
    have := ((without_none h).2 (by rw [e])).2 i (hl i hg)
    rw [Nat.zero_add] at this
    exact this hg
  have h1 := none (after_without (optimize l)) (by rw [he]; exact jump_after (h0 _ rfl))
    (fun i ⟨⟨o, ho, _⟩, _⟩ => (List.getElem?_eq_some_iff.1 ho).1)
  have h2 := none (jump_without (optimize l)) (by rw [he]; exact jump_twice (h0 _ rfl))
    (fun i ⟨n, j, ho, _⟩ => (List.getElem?_eq_some_iff.1 ho).1)
  exact fun i => ⟨h1 i, h2 i⟩

/-- **C133** (and the linter.)  In an optimised program the linter finds no `b` just before its label; in any program it finds exactly
those that the last step of optimising would remove. -/
theorem C133_lint (o : MapOrder) (l : List Op) (i : Nat) :
    (⟨i, .bJustBefore⟩ ∈ lintErrs o l ↔ Short l i) ∧ ⟨i, .bJustBefore⟩ ∉ lintErrs o (optimize l) := by
  have key : ∀ l : List Op, ⟨i, .bJustBefore⟩ ∈ lintErrs o l ↔ Short l i := by
    intro l
    rw [C30_rule]
    refine exists_congr fun n => exists_congr fun j => and_congr_right fun _ => and_congr_right fun _ => and_congr_right fun _ => ?_
    refine forall_congr' fun k => forall_congr' fun _ => forall_congr' fun _ => exists_congr fun p => and_congr_right fun hp => and_congr_right fun _ => ?_
    refine forall_congr' fun m => not_congr ?_
    rw [At] at hp
    rw [DefinedAt, At, hp, Option.some.injEq]
  exact ⟨key l, fun h => (C133_tidy l i).2 ((key _).1 h)⟩

/-- Before optimising it finds one. -/
example (o : MapOrder) : ⟨0, .bJustBefore⟩ ∈ lintErrs o [.branch .b b!"x", .label b!"x", .int 1] :=
  ((C133_lint o _ 0).1).2 ⟨b!"x", 1, rfl, by decide, rfl, fun x h h' => by omega⟩

end Teal.Props
