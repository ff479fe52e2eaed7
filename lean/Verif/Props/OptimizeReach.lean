import Verif.Spec.MayReach
import Verif.Props.Compile

/-!
# Optimising programs in which a `retsub` is never reached
-/

namespace Teal.Props

open Teal Teal.Spec

/-- Whatever a program can come to is among the lines it may come to. -/
theorem mayReach_walk {l tr : List Op} {i : Nat} {rs : List Nat} (h : Walk l (0, []) tr (i, rs)) :
    MayReach l i ∧ ∀ r ∈ rs, MayReach l r := by
  generalize ha : (0, ([] : List Nat)) = a at h
  generalize hc : (i, rs) = c at h
  have key : MayReach l c.1 ∧ ∀ r ∈ c.2, MayReach l r := by
    clear hc
    subst ha
    induction h with
    | refl => exact ⟨.start, by simp⟩
    | skip _ _ _ hs ih => exact ⟨.step ih.1 ih.2 hs, fun r hr => .back ih.1 ih.2 hs hr⟩
    | exec _ _ _ hs ih => exact ⟨.step ih.1 ih.2 hs, fun r hr => .back ih.1 ih.2 hs hr⟩
  subst hc
  exact key

theorem unused_reached {l : List Op}
    (h : ∀ i, MayReach l i → At l i (.plain .retsub) → ∃ j n o, i = j + 1 ∧ DefinedAt l n j ∧ o ∈ l ∧ Refers o n) :
    Leaves l (maskUnused (usedLabels l) none l) (MayReach l) where
  length := (unused_select _ l none).2
  start := .start
  step h1 h2 h3 := ⟨.step h1 h2 h3, fun _ hr => .back h1 h2 h3 hr⟩
  dropped {i o} hg ho hm := by
    rcases unused_dropped _ l none i o ho hm with ⟨n, rfl, -⟩ | ⟨rfl, h'⟩
    · exact .inl (.label n)
    · obtain ⟨j, n, o, rfl, h1, h2, h3⟩ := h i hg ho
      exact (h' n (mem_used.2 ⟨o, h2, h3⟩) (by simp) (fun j' hj => by simp at hj; subst hj; exact h1)).elim
  targets := unused_targets

theorem jump_leaves_used {l : List Op} (hu : ∀ n i j, .branch .b n ∈ l → DefinedAt l n i → DefinedAt l n j → i = j) :
    Leaves l (maskJump l) (fun _ => True) where
  length := (jump_select l).2
  start := trivial
  step _ _ _ := ⟨trivial, fun _ _ => trivial⟩
  dropped {i o} _ ho hm := by
    rw [maskJump_get ho] at hm
    unfold jumpVerdict at hm
    split at hm
    · rename_i t
      simp at hm
      obtain ⟨j, h1, h2⟩ := targetFollows_spec t hm
      rw [List.getElem?_drop] at h1
      refine .inr ⟨t, rfl, ⟨_, h1⟩, fun j' hj' => ?_⟩
      obtain rfl := hu t _ _ (List.mem_of_getElem? ho) h1 hj'
      refine ⟨by omega, fun x hx1 hx2 => ?_⟩
      obtain ⟨o, h3, h4⟩ := h2 (x - (i + 1)) (by omega)
      rw [List.getElem?_drop, show i + 1 + (x - (i + 1)) = x by omega] at h3
      exact ⟨o, h3, h4⟩
    · simp at hm
  targets {o n j} _ _ hd := by rw [maskJump_get hd]; rfl

theorem select_used {k : List Bool} {l : List Op} (h : ∀ n i j, .branch .b n ∈ l → DefinedAt l n i → DefinedAt l n j → i = j) :
    ∀ n i j, .branch .b n ∈ select k l → DefinedAt (select k l) n i → DefinedAt (select k l) n j → i = j := by
  intro n p q hb hp hq
  obtain ⟨i, h1, -, rfl⟩ := select_from hp
  obtain ⟨j, h2, -, rfl⟩ := select_from hq
  rw [h n i j (select_mem hb) h1 h2]

/-- **C34** (with the conditions on what matters only.)  If no label that a `b` goes to is defined twice and every
`retsub` the program may come to is directly behind a label that is referred to, then the optimised
program has the same paths. -/
theorem C34_reached_partial {l : List Op} (hu : ∀ n i j, .branch .b n ∈ l → DefinedAt l n i → DefinedAt l n j → i = j)
    (hr : ∀ i, MayReach l i → At l i (.plain .retsub) → ∃ j n o, i = j + 1 ∧ DefinedAt l n j ∧ o ∈ l ∧ Refers o n) :
    SamePaths l (optimize l) := by
  unfold optimize
  rw [merge_id]
  have h0 : SamePaths l (removeUnused l) := by
    have := (unused_reached hr).samePaths
    rwa [← (unused_select _ l none).1] at this
  refine SamePaths.trans h0 (SamePaths.trans (after_paths _) ?_)
  rw [(jump_select _).1]
  refine (jump_leaves_used ?_).samePaths
  rw [removeOpsAfterUnconditionalBranch, (after_select _ _).1, removeUnused, (unused_select _ _ _).1]
  exact select_used (select_used hu)

/-- A `retsub` behind the end of the program, which is removed. -/
def leftover : List Op := [.int 1, .plain .returnOp, .plain .retsub]

example : optimize leftover = [.int 1, .plain .returnOp] := by decide +kernel

theorem leftover_reach {i : Nat} (h : MayReach leftover i) : i ≤ 1 := by
  have key : ∀ {i j rs rs'}, i ≤ 1 → (∀ r ∈ rs, r ≤ 1) → Step leftover (i, rs) (j, rs') → j ≤ 1 ∧ ∀ r ∈ rs', r ≤ 1 := by
    intro i j rs rs' hi hrs hs
    have no : ∀ {i n}, ¬ DefinedAt leftover n i := by
      intro i n h
      have := List.mem_of_getElem? h
      simp [leftover] at this
    cases hs with
    | next ho hn =>
      refine ⟨?_, hrs⟩
      rcases i with _ | _ | i
      · omega
      · cases ho; exact absurd (NoFallThrough.halts _ .ret) hn
      · omega
    | jump _ _ _ hd => exact absurd hd no
    | call _ hd => exact absurd hd no
    | ret ho => exact ⟨hrs _ (by simp), fun r hr => hrs r (by simp [hr])⟩
  induction h with
  | start => omega
  | step _ _ h3 h1 h2 => exact (key h1 h2 h3).1
  | back _ _ h3 hr h1 h2 => exact (key h1 h2 h3).2 _ hr

/-- The hypotheses are met, although the `retsub` is not behind a label. -/
example : SamePaths leftover (optimize leftover) ∧ ¬ ReturnsAtLabels leftover := by
  refine ⟨C34_reached_partial (fun n i j _ hi => ?_) (fun i hi ho => ?_), fun h => ?_⟩
  · have := List.mem_of_getElem? hi
    simp [leftover] at this
  · have := leftover_reach hi
    rcases i with _ | _ | i
    · cases ho
    · cases ho
    · omega
  · obtain ⟨j, n, o, h1, h2, -⟩ := h 2 rfl
    have := List.mem_of_getElem? h2
    simp [leftover] at this

/-- This covers what `C34_partial` covers. -/
example {l : List Op} (hu : UniqueLabels l) (hr : ReturnsAtLabels l) : SamePaths l (optimize l) :=
  C34_reached_partial (fun n i j _ => hu n i j) fun i _ => hr i

theorem unused_returns {used : List Bytes} : ∀ {l : List Op} {prev : Option Op},
    (∀ n, prev = some (.label n) → l.head? ≠ some (.plain .retsub)) →
    (∀ i n, At l i (.label n) → ¬ At l (i + 1) (.plain .retsub)) → .plain .retsub ∉ removeUnusedLoop used prev l := by
  intro l
  induction l with
  | nil => intro prev _ _; simp [removeUnusedLoop]
  | cons o os ih =>
    intro prev hp hl
    have hl' : ∀ i n, At os i (.label n) → ¬ At os (i + 1) (.plain .retsub) := fun i n h1 h2 => hl (i + 1) n h1 h2
    have hnext : ∀ n, o = .label n → os.head? ≠ some (.plain .retsub) := by
      rintro n rfl h
      exact hl 0 n rfl (by
        cases os with
        | nil => cases h
        | cons a as => exact h)
    rw [unused_cons]
    have hv : ∀ n, (unusedVerdict used prev o os).2 = some (.label n) → os.head? ≠ some (.plain .retsub) := by
      intro n
      unfold unusedVerdict
      split
      · exact fun _ => hnext _ rfl
      · split
        · exact absurd rfl (hp _ rfl)
        · intro h; cases h
      · rename_i h1 _
        intro h
        cases h
        exact absurd rfl (h1 n)
    have hstay : o = .plain .retsub → (unusedVerdict used prev o os).1 = false := by
      rintro rfl
      unfold unusedVerdict
      dsimp only
      split
      · exact absurd rfl (hp _ rfl)
      · rfl
    split
    · rename_i h
      intro hm
      rcases List.mem_cons.1 hm with h' | h'
      · rw [hstay h'.symm] at h; cases h
      · exact ih hv hl' h'
    · exact ih hv hl'

/-- **C34** (what happens otherwise.)  If no `retsub` is directly behind a label then optimising removes
all of them, and the paths change if the program can execute one. -/
theorem C34_lost {l : List Op} (h : ∀ i n, At l i (.label n) → ¬ At l (i + 1) (.plain .retsub)) :
    .plain .retsub ∉ optimize l ∧ ∀ tr, Executes l tr → .plain .retsub ∈ tr → ¬ SamePaths l (optimize l) := by
  have h1 : .plain .retsub ∉ optimize l := by
    intro hm
    unfold optimize at hm
    rw [merge_id, (jump_select _).1, removeOpsAfterUnconditionalBranch, (after_select _ _).1] at hm
    exact unused_returns (prev := none) (by simp) h (select_mem (select_mem hm))
  refine ⟨h1, fun tr he hr hs => ?_⟩
  obtain ⟨tr', h2, h3⟩ := (hs (visible tr)).1.1 ⟨tr, he, rfl⟩
  have h4 : .plain .retsub ∈ visible tr' := by
    rw [h3]
    exact List.mem_filter.2 ⟨hr, rfl⟩
  exact h1 (executes_mem h2 _ (List.mem_filter.1 h4).1)

/-- A subroutine that does something: its `retsub` can be executed. -/
example : let l : List Op := [.branch .callsub b!"f", .int 1, .plain .returnOp, .label b!"f", .int 2, .plain .retsub]
    (∀ i n, At l i (.label n) → ¬ At l (i + 1) (.plain .retsub)) ∧ Executes l [.branch .callsub b!"f", .int 2, .plain .retsub] ∧
      optimize l = [.branch .callsub b!"f", .int 1, .plain .returnOp, .label b!"f", .int 2] := by
  refine ⟨fun i n h h' => ?_, .inr ⟨[.branch .callsub b!"f", .int 2], _, 5, [1], rfl, ?_, rfl, by rintro ⟨⟩⟩, by decide +kernel⟩
  · rcases i with _ | _ | _ | _ | _ | _ | i <;> first | (cases h; done) | (cases h'; done)
  · refine .exec (tr := [.branch .callsub b!"f"]) (i := 4) (rs := [1]) (.skip (i := 3) (rs := [1]) (.exec (tr := []) (i := 0) (rs := []) .refl rfl (by rintro ⟨⟩) (.call rfl rfl)) rfl (.label _) (.next rfl ?_))
      rfl (by rintro ⟨⟩) (.next rfl ?_)
    · rintro ⟨⟩; contradiction
    · rintro ⟨⟩; contradiction

/-- A label that a `b` goes to and that is defined twice. -/
def doubled : List Op := [.branch .b b!"x", .label b!"x", .int 1, .plain .returnOp, .label b!"x", .int 2]

theorem doubled_reach {i : Nat} (h : MayReach [.label b!"x", .int 1, .plain .returnOp, .label b!"x", .int 2] i) : i ≤ 2 := by
  have key : ∀ {i j rs rs'}, i ≤ 2 → (∀ r ∈ rs, r ≤ 2) → Step [.label b!"x", .int 1, .plain .returnOp, .label b!"x", .int 2] (i, rs) (j, rs') →
      j ≤ 2 ∧ ∀ r ∈ rs', r ≤ 2 := by
    intro i j rs rs' hi hrs hs
    cases hs with
    | next ho hn =>
      refine ⟨?_, hrs⟩
      rcases i with _ | _ | _ | i
      · omega
      · omega
      · cases ho; exact absurd (NoFallThrough.halts _ .ret) hn
      · omega
    | jump ho hr _ _ =>
      rcases i with _ | _ | _ | i
      · cases ho; cases hr
      · cases ho; cases hr
      · cases ho; cases hr
      · omega
    | call ho _ =>
      rcases i with _ | _ | _ | i
      · cases ho
      · cases ho
      · cases ho
      · omega
    | ret ho => exact ⟨hrs _ (by simp), fun r hr => hrs r (by simp [hr])⟩
  induction h with
  | start => omega
  | step _ _ h3 h1 h2 => exact (key h1 h2 h3).1
  | back _ _ h3 hr h1 h2 => exact (key h1 h2 h3).2 _ hr

/-- C34 fails if such a label is defined twice: a jump may go to either definition, and the one to the second is lost.  (The node
rejects such programs; the linter reports them, C27.) -/
theorem C34_twice_false : .plain .retsub ∉ doubled ∧ TargetsDefined doubled ∧ ¬ SamePaths doubled (optimize doubled) := by
  refine ⟨by simp [doubled], ?_, fun h => ?_⟩
  · intro o n ho hr
    simp only [doubled, List.mem_cons, List.not_mem_nil, or_false] at ho
    rcases ho with rfl | rfl | rfl | rfl | rfl | rfl <;> cases hr
    exact ⟨1, rfl⟩
  · have he : optimize doubled = [.label b!"x", .int 1, .plain .returnOp, .label b!"x", .int 2] := by decide +kernel
    rw [he] at h
    obtain ⟨tr, h1, h2⟩ := (h [.int 2]).1.1 ⟨[.branch .b b!"x", .int 2], .inr ⟨[.branch .b b!"x"], _, 5, [], rfl,
      .skip (i := 4) (rs := []) (.exec (tr := []) (i := 0) (rs := []) .refl rfl (by rintro ⟨⟩) (.jump rfl (.branch _ _) (by simp) (by rfl : DefinedAt doubled b!"x" 4)))
        rfl (.label _) (.next rfl (by rintro ⟨⟩; contradiction)), rfl, by rintro ⟨⟩⟩, rfl⟩
    rcases h1 with rfl | ⟨tr0, o, i, rs, rfl, hw, ho, hn⟩
    · cases h2
    · have hi := doubled_reach (mayReach_walk hw).1
      rcases i with _ | _ | _ | i
      · cases ho; exact hn (.label _)
      · cases ho
        rw [visible_append] at h2
        have := congrArg List.getLast? h2
        simp [visible, isJump] at this
      · cases ho
        rw [visible_append] at h2
        have := congrArg List.getLast? h2
        simp [visible, isJump] at this
      · omega

end Teal.Props
