import Verif.Lemmas.Select

/-!
# The passes of the optimiser leave out instructions
-/

namespace Teal

open Spec

theorem mem_labels {o : Op} {n : Bytes} : n ∈ o.labels ↔ Refers o n := by
  constructor
  · intro h
    cases o <;> simp [Op.labels, Op.labels?] at h
    · subst h; exact .branch _ _
    · exact .switch _ _ h
    · exact .match_ _ _ h
  · rintro (⟨k, _⟩ | ⟨ns, _, h⟩ | ⟨ns, _, h⟩) <;> simp_all [Op.labels, Op.labels?]

theorem mem_used {l : List Op} {n : Bytes} : n ∈ usedLabels l ↔ ∃ o ∈ l, Refers o n := by
  simp [usedLabels, List.mem_flatMap, mem_labels]

/-! ## removeUnused -/

/-- Whether the instruction stays, and the new value of `prev`. -/
def unusedVerdict (used : List Bytes) (prev : Option Op) (o : Op) (os : List Op) : Bool × Option Op :=
  match o with
  | .label n => if used.contains n || keepUnused os then (true, some o) else (false, prev)
  | .plain .retsub =>
    match prev with
    | some (.label n) => if used.contains n then (true, some o) else (false, prev)
    | _ => (false, some o)
  | _ => (true, some o)

def maskUnused (used : List Bytes) : Option Op → List Op → List Bool
  | _, [] => []
  | prev, o :: os => (unusedVerdict used prev o os).1 :: maskUnused used (unusedVerdict used prev o os).2 os

theorem unused_cons (used : List Bytes) (prev : Option Op) (o : Op) (os : List Op) :
    removeUnusedLoop used prev (o :: os) =
      (if (unusedVerdict used prev o os).1 then o :: removeUnusedLoop used (unusedVerdict used prev o os).2 os
       else removeUnusedLoop used (unusedVerdict used prev o os).2 os) := by
  rw [removeUnusedLoop.eq_def]
  dsimp only
  unfold unusedVerdict
  split
  · rename_i n
    by_cases h : (used.contains n || keepUnused os) = true
    · simp only [if_pos h, if_true]
    · simp only [if_neg h]; rfl
  · cases prev with
    | none => simp
    | some q =>
      cases q with
      | label n =>
        by_cases h : used.contains n = true
        · simp only [if_pos h, if_true]
        · simp only [if_neg h]; rfl
      | _ => simp
  · simp

theorem unused_false {used : List Bytes} {prev : Option Op} {o : Op} {os : List Op} (h : (unusedVerdict used prev o os).1 = false) :
    (∃ n, o = .label n ∧ n ∉ used) ∨ (o = .plain .retsub ∧ ∀ n, prev = some (.label n) → n ∉ used) := by
  unfold unusedVerdict at h
  split at h
  · rename_i n
    split at h
    · cases h
    · rename_i hc; exact .inl ⟨n, rfl, by simp at hc; exact hc.1⟩
  · split at h
    · rename_i n
      split at h
      · cases h
      · rename_i hc; exact .inr ⟨rfl, fun m hm => by simp at hm; subst hm; simpa using hc⟩
    · rename_i hp; exact .inr ⟨rfl, fun n hn => absurd hn (hp n)⟩
  · cases h

theorem unused_prev {used : List Bytes} {prev : Option Op} {n : Bytes} {os : List Op} (h : n ∈ used) :
    (unusedVerdict used prev (.label n) os).2 = some (.label n) := by
  simp [unusedVerdict, h]

theorem unused_select (used : List Bytes) : ∀ (l : List Op) (prev : Option Op),
    removeUnusedLoop used prev l = select (maskUnused used prev l) l ∧ (maskUnused used prev l).length = l.length := by
  intro l
  induction l with
  | nil => intro prev; simp [removeUnusedLoop, maskUnused, select]
  | cons o os ih =>
    intro prev
    obtain ⟨h1, h2⟩ := ih (unusedVerdict used prev o os).2
    rw [unused_cons, h1, maskUnused]
    cases (unusedVerdict used prev o os).1 <;> simp [select, h2]

theorem unused_dropped (used : List Bytes) : ∀ (l : List Op) (prev : Option Op) (i : Nat) (o : Op), l[i]? = some o →
    (maskUnused used prev l)[i]? = some false → (∃ n, o = .label n ∧ n ∉ used) ∨ (o = .plain .retsub ∧
      ∀ n ∈ used, (i = 0 → prev = some (.label n)) → (∀ j, i = j + 1 → l[j]? = some (.label n)) → False) := by
  intro l
  induction l with
  | nil => intro prev i o h; simp at h
  | cons a os ih =>
    intro prev i o ho hm
    rw [maskUnused] at hm
    cases i with
    | zero =>
      simp at ho hm
      subst ho
      rcases unused_false hm with h | ⟨h, h'⟩
      · exact .inl h
      · exact .inr ⟨h, fun n hu hn _ => h' n (hn rfl) hu⟩
    | succ i =>
      rcases ih _ i o (by simpa using ho) (by simpa using hm) with h | ⟨h, h'⟩
      · exact .inl h
      · refine .inr ⟨h, fun n hu _ hn => h' n hu (fun hi => ?_) (fun j hj => ?_)⟩
        · subst hi
          have h5 : a = .label n := by have := hn 0 rfl; simpa using this
          rw [h5]; exact unused_prev hu
        · have := hn (j + 1) (by omega); simpa using this

theorem unused_leaves {l : List Op} (h : ReturnsAtLabels l) :
    Leaves l (maskUnused (usedLabels l) none l) (fun _ => True) where
  length := (unused_select _ l none).2
  start := trivial
  step _ _ _ := ⟨trivial, fun _ _ => trivial⟩
  dropped {i o} _ ho hm := by
    rcases unused_dropped _ l none i o ho hm with ⟨n, rfl, -⟩ | ⟨rfl, h'⟩
    · exact .inl (.label n)
    · obtain ⟨j, n, o, rfl, h1, h2, h3⟩ := h i ho
      exact (h' n (mem_used.2 ⟨o, h2, h3⟩) (by simp) (fun j' hj => by simp at hj; subst hj; exact h1)).elim
  targets {o n j} ho hr hd := by
    have hi : j < (maskUnused (usedLabels l) none l).length := by
      rw [(unused_select _ l none).2]; exact (List.getElem?_eq_some_iff.1 hd).1
    rw [List.getElem?_eq_getElem hi]
    cases hm : (maskUnused (usedLabels l) none l)[j] with
    | true => rfl
    | false =>
      rcases unused_dropped _ l none j _ hd (by rw [List.getElem?_eq_getElem hi, hm]) with ⟨m, h1, h2⟩ | ⟨h1, -⟩
      · cases h1; exact absurd (mem_used.2 ⟨o, ho, hr⟩) h2
      · cases h1

theorem unused_paths {l : List Op} (h : ReturnsAtLabels l) : SamePaths l (removeUnused l) := by
  have := (unused_leaves h).samePaths
  rwa [← (unused_select _ l none).1] at this

/-! ## removeOpsAfterUnconditionalBranch -/

def afterNext (f : Bool) (o : Op) : Bool := if f then !o.isLabel else o.cuts

def maskAfter : Bool → List Op → List Bool
  | _, [] => []
  | f, o :: os => (!f || o.isLabel || o.isNop) :: maskAfter (afterNext f o) os

/-- The state of the loop at position `i`. -/
def flagAt (f : Bool) (l : List Op) (i : Nat) : Bool := (l.take i).foldl afterNext f

theorem flagAt_cons (f : Bool) (o : Op) (l : List Op) (i : Nat) : flagAt f (o :: l) (i + 1) = flagAt (afterNext f o) l i := by
  simp [flagAt]

theorem flagAt_succ {f : Bool} {l : List Op} {i : Nat} {o : Op} (h : l[i]? = some o) :
    flagAt f l (i + 1) = afterNext (flagAt f l i) o := by
  have hi := (List.getElem?_eq_some_iff.1 h).1
  unfold flagAt
  rw [List.take_add_one, h]
  simp

theorem after_select : ∀ (l : List Op) (f : Bool), removeAfterLoop f l = select (maskAfter f l) l ∧ (maskAfter f l).length = l.length := by
  intro l
  induction l with
  | nil => intro f; cases f <;> simp [removeAfterLoop, maskAfter, select]
  | cons o os ih =>
    intro f
    cases f with
    | false => simp [removeAfterLoop, maskAfter, select, ih, afterNext]
    | true =>
      rw [removeAfterLoop, maskAfter]
      refine ⟨?_, by simp [ih]⟩
      by_cases hl : o.isLabel = true
      · simp [hl, select, ih, afterNext]
      · by_cases hn : o.isNop = true
        · simp [hl, hn, select, ih, afterNext]
        · simp [hl, hn, select, ih, afterNext]

theorem maskAfter_get : ∀ {l : List Op} {f : Bool} {i : Nat} {o : Op}, l[i]? = some o →
    (maskAfter f l)[i]? = some (!flagAt f l i || o.isLabel || o.isNop) := by
  intro l
  induction l with
  | nil => intro f i o h; simp at h
  | cons a os ih =>
    intro f i o h
    cases i with
    | zero => simp at h; subst h; simp [maskAfter, flagAt]
    | succ i => rw [maskAfter, flagAt_cons]; simpa using ih (f := afterNext f a) (by simpa using h)

theorem isLabel_iff {o : Op} : o.isLabel = true ↔ ∃ n, o = .label n := by
  cases o <;> simp [Op.isLabel]

theorem cuts_noFall {o : Op} (h : o.cuts = true) : NoFallThrough o ∧ ∀ n, o ≠ .branch .callsub n := by
  unfold Op.cuts at h
  split at h
  · exact ⟨.b _, by simp⟩
  · exact ⟨.halts _ .ret, by simp⟩
  · exact ⟨.halts _ .err, by simp⟩
  · cases h

theorem after_leaves (l : List Op) :
    Leaves l (maskAfter false l) (fun i => flagAt false l i = false ∨ ∃ n, DefinedAt l n i) where
  length := (after_select l false).2
  start := .inl rfl
  step {i rs j rs'} hi hrs hs := by
    have next : ∀ {o}, At l i o → o.cuts = false → flagAt false l (i + 1) = false := by
      intro o ho hc
      rw [flagAt_succ ho]
      rcases hi with hi | ⟨n, hn⟩
      · rw [hi]; simpa [afterNext] using hc
      · rw [DefinedAt, At] at hn; rw [At, hn] at ho; cases ho
        cases flagAt false l i <;> simp [afterNext, Op.isLabel, Op.cuts]
    cases hs with
    | @next _ o _ h1 h2 =>
      refine ⟨.inl (next h1 ?_), hrs⟩
      cases hc : o.cuts with
      | false => rfl
      | true => exact absurd (cuts_noFall hc).1 h2
    | jump _ _ _ h4 => exact ⟨.inr ⟨_, h4⟩, hrs⟩
    | call h1 h2 =>
      refine ⟨.inr ⟨_, h2⟩, fun r hr => ?_⟩
      rcases List.mem_cons.1 hr with rfl | hr
      · exact .inl (next h1 rfl)
      · exact hrs r hr
    | ret _ => exact ⟨hrs _ (by simp), fun r hr => hrs r (by simp [hr])⟩
  dropped {i o} hi ho hm := by
    rw [maskAfter_get ho] at hm
    simp at hm
    rcases hi with hi | ⟨n, hn⟩
    · rw [hm.1.1] at hi; cases hi
    · rw [DefinedAt, At] at hn; rw [At, hn] at ho; cases ho
      simp [Op.isLabel] at hm
  targets {o n j} _ _ hd := by rw [maskAfter_get hd]; simp [Op.isLabel]

theorem after_paths (l : List Op) : SamePaths l (removeOpsAfterUnconditionalBranch l) := by
  have := (after_leaves l).samePaths
  rwa [← (after_select l false).1] at this

/-! ## removeBJustBeforeItsTargetLabel -/

/-- Whether the instruction stays. -/
def jumpVerdict (o : Op) (os : List Op) : Bool :=
  match o with
  | .branch .b t => !targetFollows t os
  | _ => true

def maskJump : List Op → List Bool
  | [] => []
  | o :: os => jumpVerdict o os :: maskJump os

theorem jump_select : ∀ (l : List Op), removeBJustBeforeItsTargetLabel l = select (maskJump l) l ∧ (maskJump l).length = l.length := by
  intro l
  induction l with
  | nil => simp [removeBJustBeforeItsTargetLabel, maskJump, select]
  | cons o os ih =>
    rw [removeBJustBeforeItsTargetLabel.eq_def, maskJump]
    dsimp only
    refine ⟨?_, by simp [ih.2]⟩
    rw [ih.1]
    unfold jumpVerdict
    split
    · rename_i t
      cases h : targetFollows t os <;> simp [select, h]
    · simp [select]

theorem maskJump_get : ∀ {l : List Op} {i : Nat} {o : Op}, l[i]? = some o →
    (maskJump l)[i]? = some (jumpVerdict o (l.drop (i + 1))) := by
  intro l
  induction l with
  | nil => intro i o h; simp at h
  | cons a os ih =>
    intro i o h
    cases i with
    | zero => simp at h; subst h; simp [maskJump]
    | succ i => rw [maskJump]; simpa using ih (by simpa using h)

theorem targetFollows_spec (t : Bytes) : ∀ {os : List Op}, targetFollows t os = true →
    ∃ j : Nat, os[j]? = some (.label t) ∧ ∀ x < j, ∃ o, os[x]? = some o ∧ NoOp o := by
  intro os
  induction os with
  | nil => intro h; simp [targetFollows] at h
  | cons o os ih =>
    intro h
    rw [targetFollows.eq_def] at h
    dsimp only at h
    split at h
    · rename_i n
      simp at h; subst h
      exact ⟨0, rfl, fun x hx => by omega⟩
    · by_cases hn : o.isNop = true
      · rw [if_pos hn] at h
        obtain ⟨j, h1, h2⟩ := ih h
        refine ⟨j + 1, by simpa using h1, fun x hx => ?_⟩
        cases x with
        | zero => exact ⟨o, rfl, Classical.byContradiction fun hc => by rw [nop_iff.2 hc] at hn; cases hn⟩
        | succ x => obtain ⟨o', h3, h4⟩ := h2 x (by omega); exact ⟨o', by simpa using h3, h4⟩
      · rw [if_neg hn] at h; cases h

theorem jump_leaves {l : List Op} (hu : UniqueLabels l) : Leaves l (maskJump l) (fun _ => True) where
  length := (jump_select l).2
  start := trivial
  step _ _ _ := ⟨trivial, fun _ _ => trivial⟩
  dropped {i o} _ ho hm := by
    rw [maskJump_get ho] at hm
    unfold jumpVerdict at hm
    split at hm
    · rename_i t
      simp at hm
      obtain ⟨j, h1, h2⟩ := targetFollows_spec t hm
      rw [List.getElem?_drop] at h1
      refine .inr ⟨t, rfl, ⟨_, h1⟩, fun j' hj' => ?_⟩
      obtain rfl := hu t _ _ h1 hj'
      refine ⟨by omega, fun x hx1 hx2 => ?_⟩
      obtain ⟨o, h3, h4⟩ := h2 (x - (i + 1)) (by omega)
      rw [List.getElem?_drop, show i + 1 + (x - (i + 1)) = x by omega] at h3
      exact ⟨o, h3, h4⟩
    · simp at hm
  targets {o n j} _ _ hd := by rw [maskJump_get hd]; rfl

theorem jump_paths {l : List Op} (hu : UniqueLabels l) : SamePaths l (removeBJustBeforeItsTargetLabel l) := by
  have := (jump_leaves hu).samePaths
  rwa [← (jump_select l).1] at this

/-! ## mergeLabels -/

theorem mergeLoop_id : ∀ (l : List Op) (prev : Option Op), (∀ n, prev ≠ some (.label n)) → mergeLabelsLoop prev l = l := by
  intro l
  induction l with
  | nil => intro prev _; rw [mergeLabelsLoop]
  | cons o os ih =>
    intro prev hp
    have hp' : ∀ n, (if o.isNop then prev else some o) ≠ some (.label n) := by
      intro n
      cases hn : o.isNop with
      | true => simpa using hp n
      | false => simp; rintro rfl; simp [Op.isNop] at hn
    rw [mergeLabelsLoop.eq_def]
    dsimp only
    split
    · exact absurd rfl (hp _)
    · rw [ih _ hp']

theorem merge_id (l : List Op) : mergeLabels l = l := mergeLoop_id l none (by simp)

/-! ## Optimize -/

theorem optimize_paths {l : List Op} (hu : UniqueLabels l) (hr : ReturnsAtLabels l) : SamePaths l (optimize l) := by
  unfold optimize
  rw [merge_id]
  refine SamePaths.trans (unused_paths hr) (SamePaths.trans (after_paths _) (jump_paths ?_))
  rw [removeOpsAfterUnconditionalBranch, (after_select _ _).1, removeUnused, (unused_select _ _ _).1]
  exact select_unique (select_unique hu)

theorem select_targets {l : List Op} {k : List Bool}
    (h : ∀ {o n j}, o ∈ l → Refers o n → DefinedAt l n j → k[j]? = some true) (ht : TargetsDefined l) :
    TargetsDefined (select k l) := by
  intro o n ho hr
  obtain ⟨i, hi⟩ := ht o n (select_mem ho) hr
  exact ⟨_, select_get hi (h (select_mem ho) hr hi)⟩

theorem unused_targets {l : List Op} {o : Op} {n : Bytes} {j : Nat} (ho : o ∈ l) (hr : Refers o n) (hd : DefinedAt l n j) :
    (maskUnused (usedLabels l) none l)[j]? = some true := by
  have hi : j < (maskUnused (usedLabels l) none l).length := by
    rw [(unused_select _ l none).2]; exact (List.getElem?_eq_some_iff.1 hd).1
  rw [List.getElem?_eq_getElem hi]
  cases hm : (maskUnused (usedLabels l) none l)[j] with
  | true => rfl
  | false =>
    rcases unused_dropped _ l none j _ hd (by rw [List.getElem?_eq_getElem hi, hm]) with ⟨m, h1, h2⟩ | ⟨h1, -⟩
    · cases h1; exact absurd (mem_used.2 ⟨o, ho, hr⟩) h2
    · cases h1

theorem optimize_targets {l : List Op} (h : TargetsDefined l) : TargetsDefined (optimize l) := by
  unfold optimize
  rw [merge_id, (jump_select _).1, removeOpsAfterUnconditionalBranch, (after_select _ _).1, removeUnused, (unused_select _ _ _).1]
  refine select_targets (fun _ _ hd => by rw [maskJump_get hd]; rfl) ?_
  refine select_targets (fun _ _ hd => (after_leaves _).targets (by assumption) (by assumption) hd) ?_
  exact select_targets unused_targets h

end Teal
