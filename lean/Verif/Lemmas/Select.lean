import Verif.Lemmas.VmFlow
import Verif.Spec.Compile

/-!
# Leaving out instructions

`select k l` keeps the instructions of `l` that the mask `k` marks.  If what is left out is
unreachable, does nothing or is a jump to a label right behind it, then the paths are the same.
-/

namespace Teal

open Spec

/-- The elements that are marked. -/
def select : List Bool → List Op → List Op
  | true :: k, o :: l => o :: select k l
  | false :: k, _ :: l => select k l
  | _, _ => []

/-- Where position `i` goes. -/
def place (k : List Bool) (i : Nat) : Nat := (k.take i).countP id

theorem place_zero (k : List Bool) : place k 0 = 0 := rfl

theorem place_cons (x : Bool) (k : List Bool) (i : Nat) :
    place (x :: k) (i + 1) = (if x then 1 else 0) + place k i := by
  cases x <;> simp [place, Nat.add_comm]

theorem place_kept : ∀ {k : List Bool} {i : Nat}, k[i]? = some true → place k (i + 1) = place k i + 1 := by
  intro k
  induction k with
  | nil => intro i h; simp at h
  | cons x k ih =>
    intro i h
    cases i with
    | zero => simp at h; subst h; simp [place]
    | succ i => rw [place_cons, place_cons, ih (by simpa using h)]; omega

theorem place_dropped : ∀ {k : List Bool} {i : Nat}, k[i]? = some false → place k (i + 1) = place k i := by
  intro k
  induction k with
  | nil => intro i h; simp at h
  | cons x k ih =>
    intro i h
    cases i with
    | zero => simp at h; subst h; simp [place]
    | succ i => rw [place_cons, place_cons, ih (by simpa using h)]

theorem place_mono {k : List Bool} {i j : Nat} (h : i ≤ j) : place k i ≤ place k j := by
  unfold place
  exact (List.take_sublist_take_left h).countP_le

theorem select_length : ∀ {k : List Bool} {l : List Op}, k.length = l.length → (select k l).length = place k l.length := by
  intro k
  induction k with
  | nil => intro l h; cases l <;> simp at h; simp [select, place]
  | cons x k ih =>
    intro l h
    cases l with
    | nil => simp at h
    | cons o l =>
      have := ih (l := l) (by simpa using h)
      cases x <;> simp [select, this, place_cons, Nat.add_comm]

theorem select_get : ∀ {k : List Bool} {l : List Op} {i : Nat} {o : Op}, l[i]? = some o → k[i]? = some true →
    (select k l)[place k i]? = some o := by
  intro k
  induction k with
  | nil => intro l i o _ h; simp at h
  | cons x k ih =>
    intro l i o h1 h2
    cases l with
    | nil => simp at h1
    | cons a l =>
      cases i with
      | zero => simp at h1 h2; subst h1; subst h2; simp [select, place]
      | succ i =>
        have := ih (l := l) (i := i) (o := o) (by simpa using h1) (by simpa using h2)
        cases x
        · rw [place_cons]; simpa [select] using this
        · rw [place_cons, if_pos rfl, Nat.add_comm]; simpa [select] using this

theorem select_from : ∀ {k : List Bool} {l : List Op} {p : Nat} {o : Op}, (select k l)[p]? = some o →
    ∃ i : Nat, l[i]? = some o ∧ k[i]? = some true ∧ place k i = p := by
  intro k
  induction k with
  | nil => intro l p o h; simp [select] at h
  | cons x k ih =>
    intro l p o h
    cases l with
    | nil => cases x <;> simp [select] at h
    | cons a l =>
      cases x with
      | false =>
        obtain ⟨i, h1, h2, h3⟩ := ih (l := l) (p := p) (o := o) (by simpa [select] using h)
        exact ⟨i + 1, by simpa using h1, by simpa using h2, by rw [place_cons]; simpa using h3⟩
      | true =>
        cases p with
        | zero => simp [select] at h; subst h; exact ⟨0, rfl, rfl, rfl⟩
        | succ p =>
          obtain ⟨i, h1, h2, h3⟩ := ih (l := l) (p := p) (o := o) (by simpa [select] using h)
          exact ⟨i + 1, by simpa using h1, by simpa using h2, by rw [place_cons, h3]; simp [Nat.add_comm]⟩

theorem select_mem {k : List Bool} {l : List Op} {o : Op} (h : o ∈ select k l) : o ∈ l := by
  obtain ⟨p, hp⟩ := List.mem_iff_getElem?.1 h
  obtain ⟨i, hi, -⟩ := select_from hp
  exact List.mem_of_getElem? hi

theorem select_unique {k : List Bool} {l : List Op} (h : UniqueLabels l) : UniqueLabels (select k l) := by
  intro n p q hp hq
  obtain ⟨i, h1, -, rfl⟩ := select_from hp
  obtain ⟨j, h2, -, rfl⟩ := select_from hq
  rw [h n i j h1 h2]

/-! ## Steps -/

theorem step_noop {l : List Op} {i : Nat} {rs : List Nat} {c : Nat × List Nat} {o : Op} (hs : Step l (i, rs) c)
    (ho : At l i o) (hn : NoOp o) : c = (i + 1, rs) := by
  cases hs with
  | next _ _ => rfl
  | jump h1 h2 _ _ => rw [At] at h1 ho; rw [ho] at h1; cases h1; cases hn <;> cases h2
  | call h1 _ => rw [At] at h1 ho; rw [ho] at h1; cases h1; cases hn
  | ret h1 => rw [At] at h1 ho; rw [ho] at h1; cases h1; cases hn

theorem step_jump {l : List Op} {i : Nat} {rs : List Nat} {c : Nat × List Nat} {t : Bytes} (hs : Step l (i, rs) c)
    (ho : At l i (.branch .b t)) : ∃ j, DefinedAt l t j ∧ c = (j, rs) := by
  cases hs with
  | next h1 h2 => rw [At] at h1 ho; rw [ho] at h1; cases h1; exact absurd (.b t) h2
  | @jump _ _ _ j _ h1 h2 _ h4 => rw [At] at h1 ho; rw [ho] at h1; cases h1; cases h2; exact ⟨j, h4, rfl⟩
  | call h1 _ => rw [At] at h1 ho; rw [ho] at h1; cases h1
  | ret h1 => rw [At] at h1 ho; rw [ho] at h1; cases h1

theorem Walk.over {l : List Op} {a : Nat × List Nat} {tr : List Op} {p : Nat} {rs : List Nat} (h : Walk l a tr (p, rs)) :
    ∀ q, p ≤ q → (∀ x, p ≤ x → x < q → ∃ o, At l x o ∧ NoOp o) → Walk l a tr (q, rs) := by
  intro q hq
  induction q with
  | zero => intro _; have : p = 0 := by omega
            subst this; exact h
  | succ q ih =>
    intro hx
    by_cases he : p = q + 1
    · rw [← he]; exact h
    · have hw := ih (by omega) (fun x h1 h2 => hx x h1 (by omega))
      obtain ⟨o, h1, h2⟩ := hx q (by omega) (by omega)
      exact .skip hw h1 h2 (.next h1 (noFall_nop h2))

theorem walk_executes {l tr : List Op} {c : Nat × List Nat} (h : Walk l (0, []) tr c) : Executes l tr := by
  induction h with
  | refl => exact .inl rfl
  | skip _ _ _ _ ih => exact ih
  | @exec tr i rs o c h1 h2 h3 _ _ => exact .inr ⟨tr, o, i, rs, rfl, h1, h2, h3⟩

theorem visible_append (a b : List Op) : visible (a ++ b) = visible a ++ visible b := by
  simp [visible]

theorem visible_jump (a : List Op) (t : Bytes) : visible (a ++ [.branch .b t]) = visible a := by
  simp [visible, isJump]

/-! ## The simulation -/

/-- What may be left out. -/
structure Leaves (l : List Op) (k : List Bool) (good : Nat → Prop) : Prop where
  length : k.length = l.length
  start : good 0
  /-- the reachable positions are good -/
  step : ∀ {i rs j rs'}, good i → (∀ r ∈ rs, good r) → Step l (i, rs) (j, rs') → good j ∧ ∀ r ∈ rs', good r
  /-- what is left out does nothing or jumps right behind -/
  dropped : ∀ {i o}, good i → At l i o → k[i]? = some false → NoOp o ∨
    ∃ t, o = .branch .b t ∧ (∃ j, DefinedAt l t j) ∧
      ∀ j, DefinedAt l t j → i < j ∧ ∀ x, i < x → x < j → ∃ o, At l x o ∧ NoOp o
  /-- the targets of branches stay -/
  targets : ∀ {o n j}, o ∈ l → Refers o n → DefinedAt l n j → k[j]? = some true

namespace Leaves

variable {l : List Op} {k : List Bool} {good : Nat → Prop}

theorem mask (h : Leaves l k good) {i : Nat} {o : Op} (ho : At l i o) : k[i]? = some true ∨ k[i]? = some false := by
  have hi : i < k.length := by rw [h.length]; exact (List.getElem?_eq_some_iff.1 ho).1
  rw [List.getElem?_eq_getElem hi]
  cases k[i] <;> simp

theorem between (h : Leaves l k good) {i j : Nat} (hj : j ≤ l.length) (hn : ∀ x, i ≤ x → x < j → ∃ o, At l x o ∧ NoOp o)
    {p : Nat} (h1 : place k i ≤ p) (h2 : p < place k j) : ∃ o, At (select k l) p o ∧ NoOp o := by
  have hlt : p < (select k l).length := by
    rw [select_length h.length]
    exact Nat.lt_of_lt_of_le h2 (place_mono hj)
  obtain ⟨x, h3, h4, h5⟩ := select_from (List.getElem?_eq_getElem hlt)
  have hx1 : i ≤ x := by
    apply Classical.byContradiction; intro hc
    have := place_mono (k := k) (show x + 1 ≤ i by omega)
    rw [place_kept h4] at this; omega
  have hx2 : x < j := by
    apply Classical.byContradiction; intro hc
    have := place_mono (k := k) (show j ≤ x by omega)
    omega
  obtain ⟨o, h6, h7⟩ := hn x hx1 hx2
  have h6' : l[x]? = some o := h6
  rw [h3] at h6'
  cases h6'
  exact ⟨_, List.getElem?_eq_getElem hlt, h7⟩

/-- Steps of instructions that are kept. -/
theorem step_kept (h : Leaves l k good) {i : Nat} {rs : List Nat} {j : Nat} {rs' : List Nat} (hk : k[i]? = some true)
    (hs : Step l (i, rs) (j, rs')) : Step (select k l) (place k i, rs.map (place k)) (place k j, rs'.map (place k)) := by
  cases hs with
  | next h1 h2 => rw [place_kept hk]; exact .next (select_get h1 hk) h2
  | @jump _ o n _ _ h1 h2 h3 h4 =>
    exact .jump (select_get h1 hk) h2 h3 (select_get h4 (h.targets (List.mem_of_getElem? h1) h2 h4))
  | @call _ n _ _ h1 h2 =>
    rw [List.map_cons, place_kept hk]
    exact .call (select_get h1 hk) (select_get h2 (h.targets (List.mem_of_getElem? h1) (.branch _ _) h2))
  | ret h1 => exact .ret (select_get h1 hk)

/-- From the program to what is left of it. -/
theorem forward (h : Leaves l k good) {tr : List Op} {c : Nat × List Nat} (hw : Walk l (0, []) tr c) :
    good c.1 ∧ (∀ r ∈ c.2, good r) ∧ ∃ tr', Walk (select k l) (0, []) tr' (place k c.1, c.2.map (place k)) ∧
      visible tr' = visible tr := by
  induction hw with
  | refl => exact ⟨h.start, by simp, [], .refl, rfl⟩
  | @skip tr i rs o c hw ho hn hs ih =>
    obtain ⟨g1, g2, tr', h1, h2⟩ := ih
    obtain ⟨g3, g4⟩ := h.step g1 g2 hs
    refine ⟨g3, g4, tr', ?_, h2⟩
    obtain rfl := step_noop hs ho hn
    rcases h.mask ho with hk | hk
    · exact .skip h1 (select_get ho hk) hn (h.step_kept hk hs)
    · simpa only [place_dropped hk] using h1
  | @exec tr i rs o c hw ho hn hs ih =>
    obtain ⟨g1, g2, tr', h1, h2⟩ := ih
    obtain ⟨g3, g4⟩ := h.step g1 g2 hs
    refine ⟨g3, g4, ?_⟩
    rcases h.mask ho with hk | hk
    · exact ⟨tr' ++ [o], .exec h1 (select_get ho hk) hn (h.step_kept hk hs), by rw [visible_append, visible_append, h2]⟩
    · rcases h.dropped g1 ho hk with hno | ⟨t, rfl, -, hj⟩
      · exact absurd hno hn
      · obtain ⟨j, hd, rfl⟩ := step_jump hs ho
        obtain ⟨h3, h4⟩ := hj j hd
        refine ⟨tr', ?_, by rw [visible_jump, h2]⟩
        refine Walk.over h1 _ (place_mono (by omega)) (fun x hx1 hx2 => ?_)
        have hlen : j ≤ l.length := Nat.le_of_lt (List.getElem?_eq_some_iff.1 hd).1
        exact h.between (i := i + 1) hlen (fun y hy1 hy2 => h4 y (by omega) hy2) (by rw [place_dropped hk]; exact hx1) hx2

/-- `p` is `place k i` or before it, with nothing but no-ops in between. -/
structure Behind (l : List Op) (k : List Bool) (i p : Nat) : Prop where
  le : p ≤ place k i
  noop : ∀ q, p ≤ q → q < place k i → ∃ o, At (select k l) q o ∧ NoOp o
  bound : i ≤ l.length

/-- Going on to the next instruction that is kept. -/
theorem advance (h : Leaves l k good) {rs : List Nat} {p : Nat} : ∀ (n : Nat) {i : Nat}, l.length - i ≤ n →
    ∀ {tr : List Op}, Walk l (0, []) tr (i, rs) → place k i = p → i ≤ l.length →
    ∃ tr' i', Walk l (0, []) tr' (i', rs) ∧ visible tr' = visible tr ∧ Behind l k i' p ∧
      (k[i']? = some true ∧ place k i' = p ∨ p < place k i' ∨ i' = l.length) := by
  intro n
  induction n with
  | zero =>
    intro i hi tr hw hp hb
    exact ⟨tr, i, hw, rfl, ⟨by omega, fun q h1 h2 => by omega, hb⟩, .inr (.inr (by omega))⟩
  | succ n ih =>
    intro i hi tr hw hp hb
    by_cases he : i = l.length
    · exact ⟨tr, i, hw, rfl, ⟨by omega, fun q h1 h2 => by omega, hb⟩, .inr (.inr he)⟩
    · have hlt : i < l.length := by omega
      have ho : At l i l[i] := List.getElem?_eq_getElem hlt
      obtain ⟨g1, g2, -⟩ := h.forward hw
      rcases h.mask ho with hk | hk
      · exact ⟨tr, i, hw, rfl, ⟨by omega, fun q h1 h2 => by omega, hb⟩, .inl ⟨hk, hp⟩⟩
      · rcases h.dropped g1 ho hk with hno | ⟨t, ht, ⟨j, hd⟩, hj⟩
        · exact ih (i := i + 1) (by omega) (.skip hw ho hno (.next ho (noFall_nop hno)))
            (by rw [place_dropped hk]; exact hp) (by omega)
        · obtain ⟨h3, h4⟩ := hj j hd
          rw [ht] at ho
          have hlen : j ≤ l.length := Nat.le_of_lt (List.getElem?_eq_some_iff.1 hd).1
          have hw' : Walk l (0, []) (tr ++ [.branch .b t]) (j, rs) :=
            .exec hw ho (by intro hc; cases hc) (.jump ho (.branch _ _) (by simp) hd)
          have hmono := place_mono (k := k) (show i + 1 ≤ j by omega)
          rw [place_dropped hk, hp] at hmono
          by_cases hq : place k j = p
          · obtain ⟨tr', i', e1, e2, e3⟩ := ih (i := j) (by omega) hw' hq hlen
            exact ⟨tr', i', e1, by rw [e2, visible_jump], e3⟩
          · refine ⟨_, j, hw', visible_jump _ _, ⟨hmono, fun q h1 h2 => ?_, hlen⟩, .inr (.inl (by omega))⟩
            exact h.between (i := i + 1) hlen (fun y hy1 hy2 => h4 y (by omega) hy2) (by rw [place_dropped hk, hp]; exact h1) h2

theorem walk_bound {tr : List Op} {c : Nat × List Nat} (h : Walk l (0, []) tr c) : c.1 ≤ l.length ∧ ∀ r ∈ c.2, r ≤ l.length := by
  have key : ∀ {a c : Nat × List Nat}, Step l a c → (a.1 ≤ l.length ∧ ∀ r ∈ a.2, r ≤ l.length) →
      (c.1 ≤ l.length ∧ ∀ r ∈ c.2, r ≤ l.length) := by
    intro a c hs ha
    cases hs with
    | next h1 _ => exact ⟨(List.getElem?_eq_some_iff.1 h1).1, ha.2⟩
    | jump _ _ _ h4 => exact ⟨Nat.le_of_lt (List.getElem?_eq_some_iff.1 h4).1, ha.2⟩
    | call h1 h2 =>
      refine ⟨Nat.le_of_lt (List.getElem?_eq_some_iff.1 h2).1, fun r hr => ?_⟩
      rcases List.mem_cons.1 hr with rfl | hr
      · exact (List.getElem?_eq_some_iff.1 h1).1
      · exact ha.2 r hr
    | ret _ => exact ⟨ha.2 _ (by simp), fun r hr => ha.2 r (by simp [hr])⟩
  induction h with
  | refl => exact ⟨Nat.zero_le _, by simp⟩
  | skip _ _ _ hs ih => exact key hs ih
  | exec _ _ _ hs ih => exact key hs ih

/-- Coming to an instruction of what is left: the program comes to the same one. -/
theorem arrive (h : Leaves l k good) {tr : List Op} {i p : Nat} {rs : List Nat} (hw : Walk l (0, []) tr (i, rs))
    (hb : Behind l k i p) {o : Op} (ho : At (select k l) p o) (hn : ¬ NoOp o) :
    ∃ tr' i', Walk l (0, []) tr' (i', rs) ∧ visible tr' = visible tr ∧ At l i' o ∧ k[i']? = some true ∧ place k i' = p := by
  have hne : ∀ {i'}, Behind l k i' p → ¬ p < place k i' := by
    intro i' hb' hlt
    obtain ⟨o', h1, h2⟩ := hb'.noop p (Nat.le_refl _) hlt
    rw [At] at h1 ho; rw [ho] at h1; cases h1; exact hn h2
  have hp : place k i = p := by have := hne hb; have := hb.le; omega
  obtain ⟨tr', i', h1, h2, h3, h4⟩ := h.advance _ (Nat.le_refl _) hw hp hb.bound
  refine ⟨tr', i', h1, h2, ?_⟩
  rcases h4 with ⟨h5, h6⟩ | h5 | h5
  · have hlt : i' < l.length := by rw [← h.length]; exact (List.getElem?_eq_some_iff.1 h5).1
    have hg := select_get (List.getElem?_eq_getElem hlt) h5
    rw [h6] at hg
    rw [At, hg] at ho
    cases ho
    exact ⟨List.getElem?_eq_getElem hlt, h5, h6⟩
  · exact absurd h5 (hne h3)
  · have := hne h3
    have := h3.le
    rw [h5, ← select_length h.length] at this
    have := (List.getElem?_eq_some_iff.1 ho).1
    rw [h5, ← select_length h.length] at *
    omega

/-- From what is left back to the program. -/
theorem backward (h : Leaves l k good) {tr' : List Op} {c : Nat × List Nat} (hw : Walk (select k l) (0, []) tr' c) :
    ∃ tr i rs, Walk l (0, []) tr (i, rs) ∧ visible tr = visible tr' ∧ Behind l k i c.1 ∧ c.2 = rs.map (place k) := by
  induction hw with
  | refl => exact ⟨[], 0, [], .refl, rfl, ⟨Nat.zero_le _, fun q h1 h2 => by rw [place_zero] at h2; omega, Nat.zero_le _⟩, rfl⟩
  | @skip tr' p rs' o c hw ho hn hs ih =>
    obtain ⟨tr, i, rs, h1, h2, h3, h4⟩ := ih
    obtain rfl := step_noop hs ho hn
    dsimp only at h3 h4 ⊢
    by_cases hlt : p < place k i
    · exact ⟨tr, i, rs, h1, h2, ⟨by omega, fun q hq1 hq2 => h3.noop q (by omega) hq2, h3.bound⟩, h4⟩
    · have hp : place k i = p := by have := h3.le; omega
      obtain ⟨tr2, i2, e1, e2, e3, e4⟩ := h.advance _ (Nat.le_refl _) h1 hp h3.bound
      rcases e4 with ⟨e5, e6⟩ | e5 | e5
      · have hlt : i2 < l.length := by rw [← h.length]; exact (List.getElem?_eq_some_iff.1 e5).1
        have hg := select_get (List.getElem?_eq_getElem hlt) e5
        rw [e6] at hg
        rw [At, hg] at ho
        cases ho
        have ho' : At l i2 l[i2] := List.getElem?_eq_getElem hlt
        refine ⟨tr2, i2 + 1, rs, .skip e1 ho' hn (.next ho' (noFall_nop hn)), e2.trans h2, ⟨?_, ?_, hlt⟩, h4⟩
        · rw [place_kept e5, e6]; exact Nat.le_refl _
        · rw [place_kept e5, e6]; intro q h1 h2; omega
      · exact ⟨tr2, i2, rs, e1, e2.trans h2, ⟨e5, fun q hq1 hq2 => e3.noop q (by omega) hq2, e3.bound⟩, h4⟩
      · have := (List.getElem?_eq_some_iff.1 ho).1
        have h5 := place_mono (k := k) h3.bound
        rw [e5] at e1 e3
        have h6 := e3.le
        rw [← select_length h.length] at h5 h6
        exact ⟨tr2, l.length, rs, e1, e2.trans h2, ⟨by rw [← select_length h.length]; omega,
          fun q hq1 hq2 => e3.noop q (by omega) hq2, Nat.le_refl _⟩, h4⟩
  | @exec tr' p rs' o c hw ho hn hs ih =>
    obtain ⟨tr, i, rs, h1, h2, h3, h4⟩ := ih
    dsimp only at h3 h4 ⊢
    subst h4
    obtain ⟨tr2, i2, e1, e2, e3, e4, e5⟩ := h.arrive h1 h3 ho hn
    have done : ∀ {j rs2}, Step l (i2, rs) (j, rs2) → c = (place k j, rs2.map (place k)) →
        ∃ tr i rs, Walk l (0, []) tr (i, rs) ∧ visible tr = visible (tr' ++ [o]) ∧ Behind l k i c.1 ∧ c.2 = rs.map (place k) := by
      intro j rs2 hs2 hc
      subst hc
      have hw2 := Walk.exec e1 e3 hn hs2
      exact ⟨_, j, rs2, hw2, by rw [visible_append, visible_append, e2, h2],
        ⟨Nat.le_refl _, fun q h1 h2 => by dsimp only at h1 h2; omega, (walk_bound hw2).1⟩, rfl⟩
    generalize hcfg : (p, rs.map (place k)) = a at hs
    cases hs with
    | next g1 g2 =>
      cases hcfg
      rw [At] at g1 ho; rw [ho] at g1; cases g1
      exact done (.next e3 g2) (by rw [place_kept e4, e5])
    | jump g1 g2 g3 g4 =>
      cases hcfg
      rw [At] at g1 ho; rw [ho] at g1; cases g1
      obtain ⟨j, h6, -, rfl⟩ := select_from g4
      exact done (.jump e3 g2 g3 h6) rfl
    | call g1 g2 =>
      cases hcfg
      rw [At] at g1 ho; rw [ho] at g1; cases g1
      obtain ⟨j, h6, -, rfl⟩ := select_from g2
      exact done (.call e3 h6) (by rw [List.map_cons, place_kept e4, e5])
    | @ret _ r' rest' g1 =>
      rw [At] at g1
      simp only [Prod.mk.injEq] at hcfg
      obtain ⟨rfl, hrs⟩ := hcfg
      rw [At] at ho; rw [ho] at g1; cases g1
      cases rs with
      | nil => simp at hrs
      | cons r rest =>
        simp only [List.map_cons, List.cons.injEq] at hrs
        obtain ⟨rfl, rfl⟩ := hrs
        exact done (.ret e3) rfl

/-- Leaving them out does not change the paths. -/
theorem samePaths (h : Leaves l k good) : SamePaths l (select k l) := by
  intro s
  refine ⟨⟨?_, ?_⟩, ⟨?_, ?_⟩⟩
  · rintro ⟨tr, rfl | ⟨tr0, o, i, rs, rfl, hw, ho, hn⟩, rfl⟩
    · exact ⟨[], .inl rfl, rfl⟩
    · obtain ⟨g1, -, tr', h1, h2⟩ := h.forward hw
      rcases h.mask ho with hk | hk
      · exact ⟨tr' ++ [o], .inr ⟨tr', o, _, _, rfl, h1, select_get ho hk, hn⟩, by rw [visible_append, visible_append, h2]⟩
      · rcases h.dropped g1 ho hk with hno | ⟨t, rfl, -, hj⟩
        · exact absurd hno hn
        · exact ⟨tr', walk_executes h1, by rw [visible_jump, h2]⟩
  · rintro ⟨tr, rfl | ⟨tr0, o, p, rs', rfl, hw, ho, hn⟩, rfl⟩
    · exact ⟨[], .inl rfl, rfl⟩
    · obtain ⟨tr, i, rs, h1, h2, h3, h4⟩ := h.backward hw
      obtain ⟨tr2, i2, e1, e2, e3, -, -⟩ := h.arrive h1 h3 ho hn
      exact ⟨tr2 ++ [o], .inr ⟨tr2, o, i2, rs, rfl, e1, e3, hn⟩, by rw [visible_append, visible_append, e2, h2]⟩
  · rintro ⟨tr, ⟨rs, hw⟩, rfl⟩
    obtain ⟨-, -, tr', h1, h2⟩ := h.forward hw
    exact ⟨tr', ⟨_, by rw [select_length h.length]; exact h1⟩, h2⟩
  · rintro ⟨tr', ⟨rs', hw⟩, rfl⟩
    obtain ⟨tr, i, rs, h1, h2, h3, h4⟩ := h.backward hw
    dsimp only at h3
    have h5 := h3.le
    have h6 := place_mono (k := k) h3.bound
    rw [← select_length h.length] at h6
    obtain ⟨tr2, i2, e1, e2, e3, e4⟩ := h.advance (p := (select k l).length) _ (Nat.le_refl _) h1 (by omega) h3.bound
    refine ⟨tr2, ⟨rs, ?_⟩, e2.trans h2⟩
    rcases e4 with ⟨e5, e6⟩ | e5 | e5
    · have hlt : i2 < l.length := by rw [← h.length]; exact (List.getElem?_eq_some_iff.1 e5).1
      have hg := select_get (List.getElem?_eq_getElem hlt) e5
      rw [e6] at hg
      simp at hg
    · have := place_mono (k := k) e3.bound
      rw [← select_length h.length] at this
      omega
    · rw [e5] at e1; exact e1

end Leaves

theorem SamePaths.trans {a b c : List Op} (h1 : SamePaths a b) (h2 : SamePaths b c) : SamePaths a c :=
  fun s => ⟨(h1 s).1.trans (h2 s).1, (h1 s).2.trans (h2 s).2⟩

theorem SamePaths.refl (a : List Op) : SamePaths a a := fun _ => ⟨Iff.rfl, Iff.rfl⟩

end Teal
