import Verif.Model.Linter
import Verif.Spec.Flow
import Mathlib.Data.List.Nodup

/-! Lemmas about the linter. -/

namespace Teal
open Spec

theorem isNop_iff (o : Op) : o.isNop = true ↔ NoOp o := by
  constructor
  · intro h; cases o <;> first | constructor | cases h
  · intro h; cases h <;> rfl

theorem mem_labels_iff (o : Op) (n : Bytes) : n ∈ o.labels ↔ Refers o n := by
  constructor
  · intro h
    cases o <;> simp [Op.labels, Op.labels?] at h
    · subst h; constructor
    · exact .switch _ _ h
    · exact .match_ _ _ h
  · intro h; cases h <;> simp_all [Op.labels, Op.labels?]

theorem mem_labelDefs (n : Bytes) (l : List Op) : ∀ (s i : Nat),
    i ∈ labelDefs n s l ↔ ∃ k : Nat, i = s + k ∧ l[k]? = some (.label n) := by
  induction l with
  | nil => intro s i; simp [labelDefs]
  | cons o os ih =>
    intro s i
    have key : (∃ k : Nat, i = s + k ∧ (o :: os)[k]? = some (.label n)) ↔
        (i = s ∧ o = .label n) ∨ ∃ k : Nat, i = (s + 1) + k ∧ os[k]? = some (.label n) := by
      constructor
      · rintro ⟨k, hk, h⟩
        cases k with
        | zero => left; simp at h; exact ⟨by omega, h⟩
        | succ k => right; exact ⟨k, by omega, by simpa using h⟩
      · rintro (⟨h1, h2⟩ | ⟨k, hk, h⟩)
        · exact ⟨0, by omega, by simp [h2]⟩
        · exact ⟨k + 1, by omega, by simpa using h⟩
    rw [key, ← ih]
    cases o <;> simp [labelDefs]
    rename_i nm
    by_cases h : nm = n <;> simp [h]

theorem labelDefs_sorted (n : Bytes) (l : List Op) : ∀ s, (labelDefs n s l).Pairwise (· < ·) := by
  induction l with
  | nil => intro s; simp [labelDefs]
  | cons o os ih =>
    intro s
    have h1 := ih (s + 1)
    cases o <;> try (simpa [labelDefs] using h1)
    rename_i nm
    simp only [labelDefs]
    split
    · refine List.pairwise_cons.2 ⟨?_, h1⟩
      intro a ha
      obtain ⟨k, hk, -⟩ := (mem_labelDefs _ _ _ _).1 ha
      omega
    · exact h1

theorem labelDefs_nodup (n : Bytes) (l : List Op) (s) : (labelDefs n s l).Nodup :=
  (labelDefs_sorted n l s).imp (fun h => Nat.ne_of_lt h)

theorem mem_labelUsers (n : Bytes) (l : List Op) : ∀ (s i : Nat),
    i ∈ labelUsers n s l ↔ ∃ (k : Nat) (o : Op), i = s + k ∧ l[k]? = some o ∧ n ∈ o.labels := by
  induction l with
  | nil => intro s i; simp [labelUsers]
  | cons o os ih =>
    intro s i
    simp only [labelUsers, List.mem_append, ih]
    constructor
    · rintro (h | ⟨k, o', hk, h, hm⟩)
      · simp at h; exact ⟨0, o, by omega, rfl, h.1⟩
      · exact ⟨k + 1, o', by omega, by simpa using h, hm⟩
    · rintro ⟨k, o', hk, h, hm⟩
      cases k with
      | zero => left; simp at h; subst h; simp; exact ⟨hm, by omega⟩
      | succ k => right; exact ⟨k, o', by omega, by simpa using h, hm⟩

theorem labelUsers_eq_nil (n : Bytes) (l : List Op) :
    labelUsers n 0 l = [] ↔ ∀ (i : Nat) (o : Op), l[i]? = some o → n ∉ o.labels := by
  rw [List.eq_nil_iff_forall_not_mem]
  constructor
  · intro h i o ho hm
    exact h i ((mem_labelUsers _ _ _ _).2 ⟨i, o, by omega, ho, hm⟩)
  · intro h i hi
    obtain ⟨k, o, -, ho, hm⟩ := (mem_labelUsers _ _ _ _).1 hi
    exact h k o ho hm

theorem mem_labelNames (l : List Op) (n : Bytes) :
    n ∈ labelNames l ↔ ∃ i : Nat, l[i]? = some (.label n) := by
  simp only [labelNames, List.mem_eraseDups, List.mem_filterMap]
  constructor
  · rintro ⟨o, ho, h⟩
    obtain ⟨i, hi⟩ := List.mem_iff_getElem?.1 ho
    cases o <;> simp [Op.labelName?] at h
    subst h; exact ⟨i, hi⟩
  · rintro ⟨i, hi⟩
    exact ⟨_, List.mem_iff_getElem?.2 ⟨i, hi⟩, rfl⟩

theorem mem_usedNames (l : List Op) (n : Bytes) :
    n ∈ usedNames l ↔ ∃ (i : Nat) (o : Op), l[i]? = some o ∧ n ∈ o.labels := by
  simp only [usedNames, List.mem_eraseDups, List.mem_flatMap]
  constructor
  · rintro ⟨o, ho, h⟩
    obtain ⟨i, hi⟩ := List.mem_iff_getElem?.1 ho
    exact ⟨i, o, hi, h⟩
  · rintro ⟨i, o, hi, h⟩
    exact ⟨o, List.mem_iff_getElem?.2 ⟨i, hi⟩, h⟩

theorem nodup_eraseDups {α : Type} [BEq α] [LawfulBEq α] (l : List α) : l.eraseDups.Nodup := by
  match l with
  | [] => simp
  | a :: as =>
    rw [List.eraseDups_cons]
    have := nodup_eraseDups (as.filter fun b => !b == a)
    refine List.nodup_cons.2 ⟨?_, this⟩
    simp
termination_by l.length
decreasing_by
  have := List.length_filter_le (fun b => !b == a) as
  simp; omega

/-! ### Rules over maps -/

theorem order_mem (o : MapOrder) (k : Nat) (ks : List Bytes) (n : Bytes) :
    n ∈ o.order k ks ↔ n ∈ ks := (o.perm k ks).mem_iff

theorem order_nodup (o : MapOrder) (k : Nat) (ks : List Bytes) (h : ks.Nodup) :
    (o.order k ks).Nodup := (o.perm k ks).nodup_iff.2 h

theorem label_inj {l : List Op} {i : Nat} {a b : Bytes} (ha : l[i]? = some (.label a))
    (hb : l[i]? = some (.label b)) : a = b := by
  rw [ha] at hb; simpa using hb

theorem two_le_length_iff {l : List Nat} (hn : l.Nodup) :
    1 < l.length ↔ ∃ a ∈ l, ∃ b ∈ l, a ≠ b := by
  constructor
  · intro h
    match l, hn, h with
    | a :: b :: t, hn, _ =>
      refine ⟨a, by simp, b, by simp, ?_⟩
      intro he
      simp [he] at hn
  · rintro ⟨a, ha, b, hb, hab⟩
    match l, ha, hb with
    | [x], ha, hb => simp at ha hb; omega
    | _ :: _ :: _, _, _ => simp

theorem mem_lintDuplicate (o : MapOrder) (l : List Op) (e : LintErr) :
    e ∈ lintDuplicate o l ↔ ∃ n k, e.rule = .duplicateLabel n ∧
      l[e.l]? = some (.label n) ∧ k ≠ e.l ∧ l[k]? = some (.label n) := by
  simp only [lintDuplicate, List.mem_flatMap, order_mem]
  constructor
  · rintro ⟨n, -, h⟩
    split at h
    · rename_i hlen
      simp only [List.mem_map] at h
      obtain ⟨i, hi, rfl⟩ := h
      obtain ⟨i', hi', hdef⟩ := (mem_labelDefs _ _ _ _).1 hi
      obtain rfl : i = i' := by omega
      refine ⟨n, ?_⟩
      obtain ⟨a, ha, b, hb, hab⟩ := (two_le_length_iff (labelDefs_nodup n l 0)).1 hlen
      obtain ⟨a', ha', hda⟩ := (mem_labelDefs _ _ _ _).1 ha
      obtain ⟨b', hb', hdb⟩ := (mem_labelDefs _ _ _ _).1 hb
      by_cases h : a' = i
      · exact ⟨b', rfl, hdef, by show b' ≠ i; omega, hdb⟩
      · exact ⟨a', rfl, hdef, h, hda⟩
    · simp at h
  · obtain ⟨i, r⟩ := e
    rintro ⟨n, k, rfl, hi, hk, hkd⟩
    refine ⟨n, (mem_labelNames _ _).2 ⟨_, hi⟩, ?_⟩
    have h1 : i ∈ labelDefs n 0 l := (mem_labelDefs _ _ _ _).2 ⟨i, by omega, hi⟩
    have h2 : k ∈ labelDefs n 0 l := (mem_labelDefs _ _ _ _).2 ⟨k, by omega, hkd⟩
    rw [if_pos ((two_le_length_iff (labelDefs_nodup n l 0)).2 ⟨k, h2, i, h1, hk⟩)]
    exact List.mem_map.2 ⟨i, h1, rfl⟩

theorem mem_unusedLabels (o : MapOrder) (l : List Op) (i : Nat) (n : Bytes) :
    (i, n) ∈ unusedLabels o l ↔ l[i]? = some (.label n) ∧
      ∀ (k : Nat) (p : Op), l[k]? = some p → ¬ Refers p n := by
  simp only [unusedLabels, List.mem_flatMap, order_mem, ← mem_labels_iff, ← labelUsers_eq_nil]
  constructor
  · rintro ⟨m, -, h⟩
    split at h
    · simp only [List.mem_map, Prod.mk.injEq] at h
      obtain ⟨i', hi', rfl, rfl⟩ := h
      obtain ⟨k, hk, hd⟩ := (mem_labelDefs _ _ _ _).1 hi'
      obtain rfl : i' = k := by omega
      exact ⟨hd, by assumption⟩
    · simp at h
  · rintro ⟨hi, hu⟩
    refine ⟨n, (mem_labelNames _ _).2 ⟨_, hi⟩, ?_⟩
    rw [if_pos hu]
    exact List.mem_map.2 ⟨i, (mem_labelDefs _ _ _ _).2 ⟨i, by omega, hi⟩, rfl⟩

theorem mem_lintUnused (o : MapOrder) (l : List Op) (e : LintErr) :
    e ∈ lintUnused o l ↔ ∃ n, e.rule = .unusedLabel n ∧
      l[e.l]? = some (.label n) ∧ ∀ (k : Nat) (p : Op), l[k]? = some p → ¬ Refers p n := by
  obtain ⟨i, r⟩ := e
  simp only [lintUnused, List.mem_map, LintErr.mk.injEq]
  constructor
  · rintro ⟨⟨i', n⟩, h, rfl, rfl⟩
    exact ⟨n, rfl, (mem_unusedLabels _ _ _ _).1 h⟩
  · rintro ⟨n, rfl, h⟩
    exact ⟨(i, n), (mem_unusedLabels _ _ _ _).2 h, rfl, rfl⟩

theorem mem_lintMissing (o : MapOrder) (l : List Op) (e : LintErr) :
    e ∈ lintMissing o l ↔ ∃ p n, e.rule = .missingLabel n ∧
      l[e.l]? = some p ∧ Refers p n ∧ ∀ k : Nat, l[k]? ≠ some (.label n) := by
  obtain ⟨i, r⟩ := e
  simp only [lintMissing, List.mem_flatMap, order_mem, ← mem_labels_iff]
  constructor
  · rintro ⟨n, -, h⟩
    split at h
    · rename_i hd
      simp only [List.mem_map, LintErr.mk.injEq] at h
      obtain ⟨i', hi', rfl, rfl⟩ := h
      obtain ⟨k, p, hk, hp, hm⟩ := (mem_labelUsers _ _ _ _).1 hi'
      obtain rfl : i' = k := by omega
      refine ⟨p, n, rfl, hp, hm, fun k hk => ?_⟩
      have : k ∈ labelDefs n 0 l := (mem_labelDefs _ _ _ _).2 ⟨k, by omega, hk⟩
      rw [hd] at this; cases this
    · simp at h
  · rintro ⟨p, n, rfl, hp, hm, hd⟩
    refine ⟨n, (mem_usedNames _ _).2 ⟨i, p, hp, hm⟩, ?_⟩
    have : labelDefs n 0 l = [] := by
      rw [List.eq_nil_iff_forall_not_mem]
      intro k hk
      obtain ⟨k', -, h⟩ := (mem_labelDefs _ _ _ _).1 hk
      exact hd k' h
    rw [if_pos this]
    exact List.mem_map.2 ⟨i, (mem_labelUsers _ _ _ _).2 ⟨i, p, by omega, hp, hm⟩, rfl⟩

theorem nodup_map_err (r : LintRule) (l : List Nat) (h : l.Nodup) :
    (l.map fun i => (⟨i, r⟩ : LintErr)).Nodup :=
  h.map (fun a b hab => by simpa using hab)

theorem lintDuplicate_nodup (o : MapOrder) (l : List Op) : (lintDuplicate o l).Nodup := by
  rw [lintDuplicate, List.nodup_flatMap]
  constructor
  · intro n _
    split
    · exact nodup_map_err _ _ (labelDefs_nodup n l 0)
    · simp
  · refine List.Pairwise.imp ?_ (order_nodup o 0 _ (nodup_eraseDups _))
    intro a b hab e ha hb
    have get : ∀ n, e ∈ (if (labelDefs n 0 l).length > 1 then
        (labelDefs n 0 l).map fun i => (⟨i, .duplicateLabel n⟩ : LintErr) else []) →
        l[e.l]? = some (.label n) := by
      intro n h
      split at h
      · obtain ⟨i, hi, rfl⟩ := List.mem_map.1 h
        obtain ⟨k, hk, hd⟩ := (mem_labelDefs _ _ _ _).1 hi
        obtain rfl : i = k := by omega
        exact hd
      · simp at h
    exact hab (label_inj (get a ha) (get b hb))

theorem lintUnused_nodup (o : MapOrder) (l : List Op) : (lintUnused o l).Nodup := by
  have h : (lintUnused o l) = (o.order 1 (labelNames l)).flatMap fun name =>
      if labelUsers name 0 l = [] then (labelDefs name 0 l).map fun i => ⟨i, .unusedLabel name⟩
      else [] := by
    rw [lintUnused, unusedLabels, List.map_flatMap]
    congr 1; funext n
    split <;> simp
  rw [h, List.nodup_flatMap]
  constructor
  · intro n _
    split
    · exact nodup_map_err _ _ (labelDefs_nodup n l 0)
    · simp
  · refine List.Pairwise.imp ?_ (order_nodup o 1 _ (nodup_eraseDups _))
    intro a b hab e ha hb
    have get : ∀ n, e ∈ (if labelUsers n 0 l = [] then
        (labelDefs n 0 l).map fun i => (⟨i, .unusedLabel n⟩ : LintErr) else []) →
        l[e.l]? = some (.label n) := by
      intro n h
      split at h
      · obtain ⟨i, hi, rfl⟩ := List.mem_map.1 h
        obtain ⟨k, hk, hd⟩ := (mem_labelDefs _ _ _ _).1 hi
        obtain rfl : i = k := by omega
        exact hd
      · simp at h
    exact hab (label_inj (get a ha) (get b hb))

/-! ### Unreachable code -/

/-- How the flag of the loop changes at an instruction. -/
def nextDead (used : Bytes → List Nat) : Bool → Op → Bool
  | false, o => o.stopsFlow
  | true, .label n => decide (used n = [])
  | true, _ => true

/-- The flag before the instruction with index `k` is looked at. -/
def deadFlag (used : Bytes → List Nat) : Bool → List Op → Nat → Bool
  | d, _, 0 => d
  | d, [], _ + 1 => d
  | d, o :: os, k + 1 => deadFlag used (nextDead used d o) os k

theorem deadFlag_succ (used : Bytes → List Nat) (l : List Op) : ∀ (d : Bool) (k : Nat) (o : Op),
    l[k]? = some o → deadFlag used d l (k + 1) = nextDead used (deadFlag used d l k) o := by
  induction l with
  | nil => intro d k o h; simp at h
  | cons p ps ih =>
    intro d k o h
    cases k with
    | zero => simp at h; subst h; cases ps <;> rfl
    | succ k => exact ih _ k o (by simpa using h)

theorem stopsFlow_not_nop {o : Op} (h : o.stopsFlow = true) : o.isNop = false := by
  cases o <;> first | rfl | cases h

theorem unreachableFrom_cons (used : Bytes → List Nat) (d : Bool) (i : Nat) (o : Op) (os : List Op) :
    unreachableFrom used d i (o :: os) =
      (if d = true ∧ o.isNop = false then [i] else []) ++
        unreachableFrom used (nextDead used d o) (i + 1) os := by
  cases d
  · simp [unreachableFrom, nextDead]
  · cases o <;> simp [unreachableFrom, nextDead, Op.isNop]

theorem mem_unreachableFrom (used : Bytes → List Nat) (l : List Op) : ∀ (d : Bool) (s i : Nat),
    i ∈ unreachableFrom used d s l ↔ ∃ (k : Nat) (o : Op), i = s + k ∧ l[k]? = some o ∧
      o.isNop = false ∧ deadFlag used d l k = true := by
  induction l with
  | nil => intro d s i; simp [unreachableFrom]
  | cons p ps ih =>
    intro d s i
    rw [unreachableFrom_cons, List.mem_append, ih]
    constructor
    · rintro (h | ⟨k, o, hk, ho, hn, hd⟩)
      · split at h
        · rename_i hc
          simp at h
          exact ⟨0, p, by omega, rfl, hc.2, hc.1⟩
        · simp at h
      · exact ⟨k + 1, o, by omega, by simpa using ho, hn, hd⟩
    · rintro ⟨k, o, hk, ho, hn, hd⟩
      cases k with
      | zero =>
        left; simp at ho; subst ho
        rw [if_pos ⟨hd, hn⟩]; simp; omega
      | succ k => right; exact ⟨k, o, by omega, by simpa using ho, hn, hd⟩

theorem unreachableFrom_sorted (used : Bytes → List Nat) (l : List Op) : ∀ (d : Bool) (s : Nat),
    (unreachableFrom used d s l).Pairwise (· < ·) := by
  induction l with
  | nil => intro d s; simp [unreachableFrom]
  | cons p ps ih =>
    intro d s
    rw [unreachableFrom_cons]
    refine List.pairwise_append.2 ⟨by split <;> simp, ih _ _, ?_⟩
    intro a ha b hb
    obtain ⟨k, -, hk, -⟩ := (mem_unreachableFrom _ _ _ _ _).1 hb
    split at ha <;> simp at ha
    omega

/-- The flag at a position of a program. -/
def isDead (l : List Op) (k : Nat) : Bool := deadFlag (fun n => labelUsers n 0 l) false l k

theorem mem_lintUnreachable (l : List Op) (e : LintErr) :
    e ∈ lintUnreachable l ↔ e.rule = .unreachable ∧
      ∃ o, l[e.l]? = some o ∧ o.isNop = false ∧ isDead l e.l = true := by
  obtain ⟨i, r⟩ := e
  simp only [lintUnreachable, List.mem_map, LintErr.mk.injEq, mem_unreachableFrom, isDead]
  constructor
  · rintro ⟨i', ⟨k, o, hk, ho, hn, hd⟩, rfl, rfl⟩
    obtain rfl : i' = k := by omega
    exact ⟨rfl, o, ho, hn, hd⟩
  · rintro ⟨rfl, o, ho, hn, hd⟩
    exact ⟨i, ⟨i, o, by omega, ho, hn, hd⟩, rfl, rfl⟩

theorem stopsFlow_noFall {o : Op} (h : o.stopsFlow = true) : NoFallThrough o := by
  cases o <;> try cases h
  · rename_i k
    cases k <;> first | exact .halts _ .err | exact .halts _ .ret | cases h
  · rename_i k n
    cases k <;> first | exact .b n | cases h

/-- Positions control can be at: not dead, or a label somebody refers to. -/
def live (l : List Op) (k : Nat) : Prop :=
  isDead l k = false ∨ ∃ n, l[k]? = some (.label n) ∧ labelUsers n 0 l ≠ []

theorem live_next {l : List Op} {i : Nat} {o : Op} (ho : l[i]? = some o) (hl : live l i)
    (hs : o.stopsFlow = false) : live l (i + 1) := by
  left
  rw [isDead, deadFlag_succ _ _ _ _ _ ho]
  rcases hl with h | ⟨n, hn, hu⟩
  · rw [isDead] at h
    rw [h]; exact hs
  · rw [ho] at hn
    obtain rfl : o = .label n := by simpa using hn
    cases deadFlag (fun n => labelUsers n 0 l) false l i
    · exact hs
    · simp [nextDead, hu]

theorem live_step {l : List Op} {c d : Nat × List Nat} (h : Step l c d)
    (hc : live l c.1 ∧ ∀ r ∈ c.2, live l r) : live l d.1 ∧ ∀ r ∈ d.2, live l r := by
  cases h with
  | next ho hn =>
    refine ⟨live_next ho hc.1 ?_, hc.2⟩
    by_contra hs
    exact hn (stopsFlow_noFall (by simpa using hs))
  | @jump i o n j rs ho hr _ hd =>
    refine ⟨Or.inr ⟨n, hd, ?_⟩, hc.2⟩
    intro he
    exact (labelUsers_eq_nil n l).1 he i o ho ((mem_labels_iff _ _).2 hr)
  | @call i n j rs ho hd =>
    refine ⟨Or.inr ⟨n, hd, ?_⟩, ?_⟩
    · intro he
      exact (labelUsers_eq_nil n l).1 he i _ ho ((mem_labels_iff _ _).2 (.branch _ _))
    · intro r hr
      rcases List.mem_cons.1 hr with rfl | hr
      · exact live_next ho hc.1 rfl
      · exact hc.2 r hr
  | @ret i r rs ho =>
    exact ⟨hc.2 r (by simp), fun r' h => hc.2 r' (by simp [h])⟩

theorem live_steps {l : List Op} {c d : Nat × List Nat} (h : Steps l c d)
    (hc : live l c.1 ∧ ∀ r ∈ c.2, live l r) : live l d.1 ∧ ∀ r ∈ d.2, live l r := by
  induction h with
  | refl => exact hc
  | tail _ hs ih => exact live_step hs ih

theorem dead_after (l : List Op) (i : Nat) (o : Op) (ho : l[i]? = some o)
    (hs : o.stopsFlow = true) : ∀ d : Nat,
    (∀ k n, i < k → k < i + 1 + d → l[k]? ≠ some (.label n)) → i + 1 + d ≤ l.length →
    isDead l (i + 1 + d) = true := by
  intro d
  induction d with
  | zero =>
    intro _ _
    show isDead l (i + 1) = true
    rw [isDead, deadFlag_succ _ _ _ _ _ ho]
    cases deadFlag (fun n => labelUsers n 0 l) false l i
    · exact hs
    · cases o <;> first | rfl | cases hs
  | succ d ih =>
    intro hn hlen
    have h1 := ih (fun k n h1 h2 => hn k n h1 (by omega)) (by omega)
    have hlt : i + 1 + d < l.length := by omega
    show isDead l (i + 1 + d + 1) = true
    rw [isDead, deadFlag_succ _ _ _ _ _ (List.getElem?_eq_getElem hlt)]
    rw [isDead] at h1
    rw [h1]
    have hk := fun n => hn (i + 1 + d) n (by omega) (by omega)
    rw [List.getElem?_eq_getElem hlt] at hk
    generalize l[i + 1 + d] = p at hk
    cases p <;> first | rfl | (exact absurd rfl (hk _))

/-! ### Branches just before their target -/

theorem nextLabelIs_iff (n : Bytes) (l : List Op) : nextLabelIs n l = true ↔
    ∃ m : Nat, l[m]? = some (.label n) ∧
      ∀ k < m, ∃ o, l[k]? = some o ∧ NoOp o ∧ ∀ n', o ≠ .label n' := by
  induction l with
  | nil => simp [nextLabelIs]
  | cons o os ih =>
    have skip : o.isNop = true → (∀ n', o ≠ .label n') →
        ((∃ m : Nat, os[m]? = some (.label n) ∧
            ∀ k < m, ∃ o, os[k]? = some o ∧ NoOp o ∧ ∀ n', o ≠ .label n') ↔
          ∃ m : Nat, (o :: os)[m]? = some (.label n) ∧
            ∀ k < m, ∃ o', (o :: os)[k]? = some o' ∧ NoOp o' ∧ ∀ n', o' ≠ .label n') := by
      intro hnop hnl
      constructor
      · rintro ⟨m, hm, hk⟩
        refine ⟨m + 1, by simpa using hm, ?_⟩
        intro k hkm
        cases k with
        | zero => exact ⟨o, rfl, (isNop_iff o).1 hnop, hnl⟩
        | succ k => simpa using hk k (by omega)
      · rintro ⟨m, hm, hk⟩
        cases m with
        | zero => simp at hm; exact absurd hm (hnl n)
        | succ m =>
          refine ⟨m, by simpa using hm, fun k hkm => ?_⟩
          simpa using hk (k + 1) (by omega)
    have stop : o.isNop = false →
        ¬ ∃ m : Nat, (o :: os)[m]? = some (.label n) ∧
            ∀ k < m, ∃ o', (o :: os)[k]? = some o' ∧ NoOp o' ∧ ∀ n', o' ≠ .label n' := by
      rintro hnop ⟨m, hm, hk⟩
      cases m with
      | zero => simp at hm; subst hm; cases hnop
      | succ m =>
        obtain ⟨o', ho', hno, -⟩ := hk 0 (by omega)
        simp at ho'; subst ho'
        rw [(isNop_iff _).2 hno] at hnop; cases hnop
    cases o with
    | label a =>
      simp only [nextLabelIs, decide_eq_true_eq]
      constructor
      · rintro rfl; exact ⟨0, rfl, by omega⟩
      · rintro ⟨m, hm, hk⟩
        cases m with
        | zero => simpa using hm
        | succ m =>
          obtain ⟨o', ho', -, hne⟩ := hk 0 (by omega)
          simp at ho'
          exact absurd ho'.symm (hne a)
    | empty => rw [← skip rfl (by simp)]; simpa [nextLabelIs, Op.isNop] using ih
    | pragma v => rw [← skip rfl (by simp)]; simpa [nextLabelIs, Op.isNop] using ih
    | comment v => rw [← skip rfl (by simp)]; simpa [nextLabelIs, Op.isNop] using ih
    | _ =>
      have h := stop rfl
      simp only [h, iff_false]
      simp [nextLabelIs, Op.isNop]

theorem mem_bJustBeforeFrom (l : List Op) : ∀ s i : Nat, i ∈ bJustBeforeFrom s l ↔
    ∃ (k : Nat) (n : Bytes), i = s + k ∧ l[k]? = some (.branch .b n) ∧
      nextLabelIs n (l.drop (k + 1)) = true := by
  induction l with
  | nil => intro s i; simp [bJustBeforeFrom]
  | cons o os ih =>
    intro s i
    have hcons : bJustBeforeFrom s (o :: os) =
        (match o with
          | .branch .b n => if nextLabelIs n os = true then [s] else []
          | _ => []) ++ bJustBeforeFrom (s + 1) os := by
      cases o <;> try rfl
      rename_i k n
      cases k <;> try rfl
      simp only [bJustBeforeFrom]
      cases os with
      | nil => simp [nextLabelIs]
      | cons p ps => simp only [ne_eq, reduceCtorEq, not_false_eq_true, true_and]; split <;> simp
    rw [hcons, List.mem_append, ih]
    constructor
    · rintro (h | ⟨k, n, hk, hb, hn⟩)
      · cases o <;> try (simp at h; done)
        rename_i k n
        cases k <;> try (simp at h; done)
        simp only at h
        split at h
        · simp at h; exact ⟨0, n, by omega, rfl, by simpa⟩
        · simp at h
      · exact ⟨k + 1, n, by omega, by simpa using hb, by simpa using hn⟩
    · rintro ⟨k, n, hk, hb, hn⟩
      cases k with
      | zero =>
        left; simp at hb; subst hb
        simp only
        rw [if_pos (by simpa using hn)]
        simp; omega
      | succ k => right; exact ⟨k, n, by omega, by simpa using hb, by simpa using hn⟩

theorem mem_lintBJustBefore (l : List Op) (e : LintErr) :
    e ∈ lintBJustBefore l ↔ e.rule = .bJustBefore ∧
      ∃ n j, l[e.l]? = some (.branch .b n) ∧ e.l < j ∧ l[j]? = some (.label n) ∧
        ∀ k, e.l < k → k < j → ∃ o, l[k]? = some o ∧ NoOp o ∧ ∀ n', o ≠ .label n' := by
  obtain ⟨i, r⟩ := e
  simp only [lintBJustBefore, List.mem_map, LintErr.mk.injEq, mem_bJustBeforeFrom, nextLabelIs_iff,
    List.getElem?_drop]
  constructor
  · rintro ⟨i', ⟨k, n, hk, hb, m, hm, hall⟩, rfl, rfl⟩
    obtain rfl : i' = k := by omega
    refine ⟨rfl, n, i' + 1 + m, hb, by omega, hm, ?_⟩
    intro q h1 h2
    have := hall (q - (i' + 1)) (by omega)
    rwa [show i' + 1 + (q - (i' + 1)) = q by omega] at this
  · rintro ⟨rfl, n, j, hb, hj, hd, hall⟩
    refine ⟨i, ⟨i, n, by omega, hb, j - (i + 1), ?_, ?_⟩, rfl, rfl⟩
    · rwa [show i + 1 + (j - (i + 1)) = j by omega]
    · intro k hk
      exact hall _ (by omega) (by omega)

/-! ### Loops -/

theorem findBack_iff (l : List Op) (n : Bytes) : ∀ (i j : Nat), findBack l n i = some j ↔
    j < i ∧ l[j]? = some (.label n) ∧ ∀ k, j < k → k < i → l[k]? ≠ some (.label n) := by
  intro i
  induction i with
  | zero => intro j; simp [findBack]
  | succ i ih =>
    intro j
    simp only [findBack]
    split
    · rename_i h
      constructor
      · intro he
        obtain rfl : i = j := by simpa using he
        exact ⟨by omega, h, fun k h1 h2 => by omega⟩
      · rintro ⟨h1, h2, h3⟩
        by_cases hij : j = i
        · rw [hij]
        · exact absurd h (h3 i (by omega) (by omega))
    · rename_i h
      rw [ih]
      constructor
      · rintro ⟨h1, h2, h3⟩
        refine ⟨by omega, h2, fun k hk1 hk2 => ?_⟩
        by_cases hki : k = i
        · rw [hki]; exact h
        · exact h3 k hk1 (by omega)
      · rintro ⟨h1, h2, h3⟩
        have : j ≠ i := by rintro rfl; exact h h2
        exact ⟨by omega, h2, fun k hk1 hk2 => h3 k hk1 (by omega)⟩

theorem isTerminator_iff (o : Op) : o.isTerminator = true ↔ Halts o ∨ o = .plain .retsub := by
  constructor
  · intro h
    cases o <;> try cases h
    rename_i k
    cases k <;> first | exact .inl .err | exact .inl .ret | exact .inr rfl | cases h
  · rintro (h | rfl)
    · cases h <;> rfl
    · rfl

theorem canEscape_false_iff (l : List Op) (frm til : Nat) : canEscape l frm til = false ↔
    ∀ (k : Nat) (o : Op), frm ≤ k → k ≤ til → l[k]? = some o →
      o.isTerminator = false ∧
        ∀ n idx, Refers o n → l[idx]? = some (.label n) → frm ≤ idx ∧ idx ≤ til := by
  rw [canEscape, List.any_eq_false]
  simp only [List.mem_range'_1]
  constructor
  · intro h k o h1 h2 ho
    have hk := h k (by omega)
    rw [ho] at hk
    simp only at hk
    cases hl : o.labels? with
    | some ls =>
      rw [hl] at hk
      constructor
      · cases o <;> first | rfl | cases hl
      · intro n idx hr hd
        have hn : n ∈ ls := by
          have := (mem_labels_iff o n).2 hr
          rwa [Op.labels, hl] at this
        simp only [List.any_eq_true, not_exists, not_and, Bool.or_eq_true, decide_eq_true_eq] at hk
        have := hk n hn idx ((mem_labelDefs _ _ _ _).2 ⟨idx, by omega, hd⟩)
        omega
    | none =>
      rw [hl] at hk
      refine ⟨by simpa using hk, fun n idx hr _ => ?_⟩
      have := (mem_labels_iff o n).2 hr
      rw [Op.labels, hl] at this; cases this
  · intro h k hk
    cases ho : l[k]? with
    | none => simp
    | some o =>
      obtain ⟨h1, h2⟩ := h k o (by omega) (by omega) ho
      simp only
      cases hl : o.labels? with
      | some ls =>
        simp only [List.any_eq_true, not_exists, not_and, Bool.or_eq_true, decide_eq_true_eq]
        intro n hn idx hidx
        obtain ⟨idx', he, hd⟩ := (mem_labelDefs _ _ _ _).1 hidx
        have := h2 n idx' ((mem_labels_iff o n).1 (by rw [Op.labels, hl]; exact hn)) hd
        omega
      | none => simp [h1]

theorem mem_lintLoops (l : List Op) (e : LintErr) :
    e ∈ lintLoops l ↔ e.rule = .infiniteLoop ∧
      ∃ n j, l[e.l]? = some (.branch .b n) ∧ j < e.l ∧ l[j]? = some (.label n) ∧
        (∀ k, j < k → k < e.l → l[k]? ≠ some (.label n)) ∧ canEscape l j e.l = false := by
  obtain ⟨i, r⟩ := e
  simp only [lintLoops, List.mem_map, LintErr.mk.injEq, List.mem_filter, List.mem_range]
  constructor
  · rintro ⟨i', ⟨hlt, h⟩, rfl, rfl⟩
    simp only [Bool.and_eq_true, loopsAt] at h
    refine ⟨rfl, ?_⟩
    obtain ⟨-, h⟩ := h
    split at h
    · rename_i n hn
      split at h
      · rename_i j hj
        obtain ⟨h1, h2, h3⟩ := (findBack_iff _ _ _ _).1 hj
        exact ⟨n, j, hn, h1, h2, h3, by simpa using h⟩
      · cases h
    · cases h
  · rintro ⟨rfl, n, j, hb, hj, hd, hnear, hesc⟩
    refine ⟨i, ⟨?_, ?_⟩, rfl, rfl⟩
    · exact (List.getElem?_eq_some_iff.1 hb).1
    · simp only [Bool.and_eq_true, loopsAt, hb, (findBack_iff l n i j).2 ⟨hj, hd, hnear⟩, hesc]
      refine ⟨?_, rfl⟩
      simp; omega

/-! ### Pragmas -/

theorem pragmaFrom_cons (p : Bool) (i : Nat) (o : Op) (os : List Op) :
    pragmaFrom p i (o :: os) =
      (match o with
        | .pragma _ => if p then [i] else []
        | _ => []) ++
      pragmaFrom (p || !o.isNop || (match o with | .pragma _ => true | _ => false)) (i + 1) os := by
  cases o <;> simp [pragmaFrom, Op.isNop]
  cases p <;> simp

theorem mem_pragmaFrom (l : List Op) : ∀ (p : Bool) (s i : Nat), i ∈ pragmaFrom p s l ↔
    ∃ (k : Nat) (v : Nat), i = s + k ∧ l[k]? = some (.pragma v) ∧
      (p = true ∨ ∃ (k' : Nat) (o : Op), k' < k ∧ l[k']? = some o ∧
        (¬ NoOp o ∨ ∃ v', o = .pragma v')) := by
  induction l with
  | nil => intro p s i; simp [pragmaFrom]
  | cons o os ih =>
    intro p s i
    rw [pragmaFrom_cons, List.mem_append, ih]
    constructor
    · rintro (h | ⟨k, v, hk, hv, hp⟩)
      · cases o <;> try (simp at h; done)
        rename_i v
        simp only at h
        cases p
        · simp at h
        · simp at h; exact ⟨0, v, by omega, rfl, .inl rfl⟩
      · refine ⟨k + 1, v, by omega, by simpa using hv, ?_⟩
        rcases hp with hp | ⟨k', o', hk', ho', hno⟩
        · simp only [Bool.or_eq_true, Bool.not_eq_true'] at hp
          rcases hp with (hp | hp) | hp
          · exact .inl hp
          · refine .inr ⟨0, o, by omega, rfl, .inl ?_⟩
            intro hn; rw [(isNop_iff o).2 hn] at hp; cases hp
          · cases o <;> first | exact .inr ⟨0, _, by omega, rfl, .inr ⟨_, rfl⟩⟩ | cases hp
        · exact .inr ⟨k' + 1, o', by omega, by simpa using ho', hno⟩
    · rintro ⟨k, v, hk, hv, hp⟩
      cases k with
      | zero =>
        left; simp at hv; subst hv
        rcases hp with rfl | ⟨k', _, hk', _⟩
        · simp; omega
        · omega
      | succ k =>
        right
        refine ⟨k, v, by omega, by simpa using hv, ?_⟩
        rcases hp with rfl | ⟨k', o', hk', ho', hno⟩
        · exact .inl rfl
        · cases k' with
          | zero =>
            left
            simp at ho'; subst ho'
            rcases hno with hno | ⟨v', rfl⟩
            · have : o.isNop = false := by
                by_contra hc
                exact hno ((isNop_iff o).1 (by simpa using hc))
              simp [this]
            · simp
          | succ k' => exact .inr ⟨k', o', by omega, by simpa using ho', hno⟩

theorem mem_lintPragma (l : List Op) (e : LintErr) :
    e ∈ lintPragma l ↔ e.rule = .pragmaAfterInstr ∧
      ∃ v, l[e.l]? = some (.pragma v) ∧ ∃ (k : Nat) (o : Op), k < e.l ∧ l[k]? = some o ∧
        (¬ NoOp o ∨ ∃ v', o = .pragma v') := by
  obtain ⟨i, r⟩ := e
  simp only [lintPragma, List.mem_map, LintErr.mk.injEq, mem_pragmaFrom]
  constructor
  · rintro ⟨i', ⟨k, v, hk, hv, hp⟩, rfl, rfl⟩
    obtain rfl : i' = k := by omega
    refine ⟨rfl, v, hv, ?_⟩
    rcases hp with hp | hp
    · cases hp
    · exact hp
  · rintro ⟨rfl, v, hv, hp⟩
    exact ⟨i, ⟨i, v, by omega, hv, .inr hp⟩, rfl, rfl⟩

/-! ### All rules -/

theorem mem_lintErrs (o : MapOrder) (l : List Op) (e : LintErr) : e ∈ lintErrs o l ↔
    e ∈ lintDuplicate o l ∨ e ∈ lintUnused o l ∨ e ∈ lintUnreachable l ∨ e ∈ lintBJustBefore l ∨
      e ∈ lintMissing o l ∨ e ∈ lintLoops l ∨ e ∈ lintPragma l := by
  simp only [lintErrs, List.mem_append]
  tauto

theorem lintErrs_rule (o : MapOrder) (l : List Op) (e : LintErr) : e ∈ lintErrs o l ↔
    match e.rule with
    | .duplicateLabel _ => e ∈ lintDuplicate o l
    | .unusedLabel _ => e ∈ lintUnused o l
    | .unreachable => e ∈ lintUnreachable l
    | .bJustBefore => e ∈ lintBJustBefore l
    | .missingLabel _ => e ∈ lintMissing o l
    | .infiniteLoop => e ∈ lintLoops l
    | .pragmaAfterInstr => e ∈ lintPragma l := by
  rw [mem_lintErrs, mem_lintDuplicate, mem_lintUnused, mem_lintUnreachable, mem_lintBJustBefore,
    mem_lintMissing, mem_lintLoops, mem_lintPragma]
  obtain ⟨i, r⟩ := e
  cases r <;> simp

end Teal
