import Verif.Spec.Actions
import Verif.Lemmas.Hints
import Verif.Lemmas.Optimize

/-! # Lemmas about quick fixes for lines, labels and versions -/

namespace Teal.Lsp

open Teal Teal.Spec Teal.Lsp.Spec Teal.Props

/-- What is read does not depend on the order in which maps are visited. -/
theorem process_same {env env' : Env} {src : Bytes} {r r' : ProcessResult} (he : env.addrOk = env'.addrOk) (h : process env src = some r)
    (h' : process env' src = some r') : r.listing = r'.listing ∧ r.version = r'.version ∧ r.versionToken = r'.versionToken ∧
      r.versions = r'.versions ∧ r.symbolRefs = r'.symbolRefs ∧ r.missRefs = r'.missRefs ∧ r.symbols = r'.symbols ∧ r.lines = r'.lines ∧
      r.ops = r'.ops := by
  unfold process at h h'
  dsimp only at h h'
  rw [he] at h
  cases hp : processLines env'.addrOk {} (sourceLines (readTokens src).1) with
  | none => rw [hp] at h; cases h
  | some os =>
    rw [hp] at h h'
    dsimp only at h h'
    unfold assemble at h h'
    dsimp only at h h'
    obtain ⟨_, _, rfl⟩ := Option.map_eq_some_iff.1 h
    obtain ⟨_, _, rfl⟩ := Option.map_eq_some_iff.1 h'
    exact ⟨rfl, rfl, rfl, rfl, rfl, rfl, rfl, rfl, rfl⟩

theorem process_redundants {env : Env} {src : Bytes} {r : ProcessResult} (h : process env src = some r) :
    r.redundants = lintReds env.maps r.listing := by
  obtain ⟨os, hr, ha⟩ := process_run h
  unfold assemble at ha
  dsimp only at ha
  obtain ⟨_, _, rfl⟩ := Option.map_eq_some_iff.1 ha
  rfl

/-- The lines offered for removal. -/
theorem redundant_iff (o : MapOrder) (l : List Op) (k : Int) : (∃ d ∈ lintReds o l, d.line = k) ↔ ∃ i : Nat, k = i ∧ Dispensable l i := by
  constructor
  · rintro ⟨d, hd, rfl⟩
    cases d with
    | label i n =>
      obtain ⟨h3, h4⟩ := (C28_unused_labels o l i n).1.1 ((C28_redundant_lines o l i n).1.1 hd)
      exact ⟨i, rfl, .label n h3 h4⟩
    | b i =>
      obtain ⟨n, j, h1, h2, h3, h4⟩ := (C30_rule o l i).1 ((C28_redundant_lines o l i []).2.1 hd)
      exact ⟨i, rfl, .jump n j h1 h2 h3 h4⟩
  · rintro ⟨i, rfl, hd⟩
    cases hd with
    | label n h hu => exact ⟨.label i n, (C28_redundant_lines o l i n).1.2 ((C28_unused_labels o l i n).1.2 ⟨h, hu⟩), rfl⟩
    | jump n j h hj hd hb => exact ⟨.b i, (C28_redundant_lines o l i []).2.2 ((C30_rule o l i).2 ⟨n, j, h, hj, hd, hb⟩), rfl⟩

/-! ## Offsets -/

theorem breaks_le {src pre post : Bytes} (he : src = pre ++ post) (hs : ¬ (pre.getLast? = some chCR ∧ post.head? = some chLF)) :
    breaks pre ≤ breaks src := by
  rw [he, breaks_append _ _ hs]; omega

/-- The end of a line has its last column. -/
theorem at_end_last {src : Bytes} {l c c' o o' : Nat} (h : At src l c o) (h' : At src l c' o') (he : ∀ x, src[o']? = some x → Break x) :
    c ≤ c' := by
  obtain ⟨pre, post, he1, rfl, h1, h2, h3⟩ := h
  obtain ⟨pre', post', he2, rfl, h1', h2', h3'⟩ := h'
  have heq : pre ++ post = pre' ++ post' := he1.symm.trans he2
  rcases List.append_eq_append_iff.1 heq with ⟨mid, rfl, hm⟩ | ⟨mid, rfl, hm⟩
  · subst hm
    by_cases hne : mid = []
    · subst hne; rw [List.append_nil] at h2'; omega
    have hb : breaks mid = 0 := by
      rw [breaks_append] at h1'
      · omega
      · rintro ⟨e1, e2⟩
        refine h3 ⟨e1, ?_⟩
        cases mid with
        | nil => exact absurd rfl hne
        | cons a m => simpa using e2
    rw [column_append _ _ (breaks_zero hb)] at h2'
    omega
  · subst hm
    cases mid with
    | nil => rw [List.append_nil] at h2; omega
    | cons a m =>
      exfalso
      have ha : Break a := he a (by rw [he2]; simp)
      have hb : breaks (a :: m) = 0 := by
        rw [breaks_append] at h1
        · omega
        · rintro ⟨e1, e2⟩
          exact h3' ⟨e1, by simpa using e2⟩
      exact breaks_zero hb a (by simp) ha

theorem at_end_same {src : Bytes} {l c c' o o' : Nat} (h : At src l c o) (he' : ∀ x, src[o]? = some x → Break x) (h' : At src l c' o')
    (he : ∀ x, src[o']? = some x → Break x) : o = o' := by
  have h1 := at_end_last h h' he
  have h2 := at_end_last h' h he'
  obtain rfl : c = c' := by omega
  exact at_unique h h'

/-- A position is one offset. -/
theorem place_unique {src : Bytes} {l c o o' : Nat} (h : Place src l c o) (h' : Place src l c o') : o = o' := by
  have hle : ∀ {c o : Nat}, At src l c o → l ≤ breaks src := by
    rintro c o ⟨pre, post, he, -, rfl, -, hs⟩
    exact breaks_le he hs
  cases h with
  | there _ h =>
    cases h' with
    | there _ h' => exact at_unique h h'
    | lineEnd c' _ h' hc he => have := at_end_last h h' he; omega
    | textEnd h' => have := hle h; omega
  | lineEnd c1 _ h hc he =>
    cases h' with
    | there _ h' => have := at_end_last h' h he; omega
    | lineEnd c' _ h' hc' he' => exact at_end_same h he h' he'
    | textEnd h' => have := hle h; omega
  | textEnd h =>
    cases h' with
    | there _ h' => have := hle h'; omega
    | lineEnd c' _ h' hc' he' => have := hle h'; omega
    | textEnd h' => rfl

/-- An edit gives one text. -/
theorem applied_unique {src : Bytes} {e : TextEdit} {a b : Bytes} (ha : Applied src e a) (hb : Applied src e b) : a = b := by
  obtain ⟨l, c, l', c', o, o', h1, h2, h3, -, rfl⟩ := ha
  obtain ⟨m, d, m', d', p, p', k1, k2, k3, -, rfl⟩ := hb
  rw [h1] at k1
  simp only [Rg.mk.injEq, Pos.mk.injEq, Int.natCast_inj] at k1
  obtain ⟨⟨rfl, rfl⟩, rfl, rfl⟩ := k1
  rw [place_unique h2 k2, place_unique h3 k3]

/-! ## Lines a program can do without -/

def maskOne (n k : Nat) : List Bool := (List.range n).map fun i => decide (i ≠ k)

theorem maskOne_get {n k i : Nat} (h : i < n) : (maskOne n k)[i]? = some (decide (i ≠ k)) := by
  simp [maskOne, h]

theorem select_true : ∀ (l : List Op) (m : List Bool), m.length = l.length → (∀ b ∈ m, b = true) → select m l = l := by
  intro l
  induction l with
  | nil => intro m h _; cases m with | nil => rfl | cons => simp at h
  | cons o l ih =>
    intro m h ht
    cases m with
    | nil => simp at h
    | cons b m =>
      rw [ht b (by simp), select, ih m (by simpa using h) fun b hb => ht b (by simp [hb])]

theorem select_one (l : List Op) (k : Nat) : select (maskOne l.length k) l = l.eraseIdx k := by
  have key : ∀ (l : List Op) (j k : Nat), select ((List.range' j l.length).map fun i => decide (i ≠ j + k)) l = l.eraseIdx k := by
    intro l
    induction l with
    | nil => intro j k; simp [select]
    | cons o l ih =>
      intro j k
      simp only [List.length_cons, List.range'_succ, List.map_cons]
      cases k with
      | zero =>
        simp only [Nat.add_zero, ne_eq, not_true, decide_false, select, List.eraseIdx_zero, List.tail_cons]
        refine select_true _ _ (by simp) ?_
        intro b hb
        obtain ⟨i, hi, rfl⟩ := List.mem_map.1 hb
        have := (List.mem_range'_1.1 hi).1
        simp; omega
      | succ k =>
        have : decide (j ≠ j + (k + 1)) = true := by simp
        rw [this, select, List.eraseIdx_cons_succ, ← ih (j + 1) k]
        congr 3
        funext i
        simp; omega
  have := key l 0 k
  rw [← this]
  unfold maskOne
  rw [List.range_eq_range']
  simp

/-- A program without a line it can do without has the same paths. -/
theorem dispensable_paths {l : List Op} {k : Nat} (h : Dispensable l k) (hu : ∀ n i j, Teal.Spec.At l k (.branch .b n) → DefinedAt l n i → DefinedAt l n j → i = j) :
    SamePaths l (l.eraseIdx k) := by
  rw [← select_one]
  have hl : Leaves l (maskOne l.length k) (fun _ => True) :=
    { length := by simp [maskOne]
      start := trivial
      step := fun _ _ _ => ⟨trivial, fun _ _ => trivial⟩
      dropped := by
        intro i o _ ho hm
        rw [maskOne_get (List.getElem?_eq_some_iff.1 ho).1] at hm
        obtain rfl : i = k := by simpa using hm
        cases h with
        | label n h hn =>
          have : o = .label n := Option.some.inj (ho.symm.trans h)
          rw [this]; exact .inl (.label n)
        | jump n j h hj hd hb =>
          have : o = .branch .b n := Option.some.inj (ho.symm.trans h)
          refine .inr ⟨n, this, ⟨j, hd⟩, fun j' hj' => ?_⟩
          obtain rfl := hu n j j' h hd hj'
          exact ⟨hj, fun x h1 h2 => by obtain ⟨o, h3, h4, -⟩ := hb x h1 h2; exact ⟨o, h3, h4⟩⟩
      targets := by
        intro o n j ho hr hd
        rw [maskOne_get (List.getElem?_eq_some_iff.1 hd).1]
        have : j ≠ k := by
          rintro rfl
          cases h with
          | label m h hn =>
            have : n = m := by have := hd.symm.trans h; simpa using this
            subst this
            obtain ⟨i, hi⟩ := List.mem_iff_getElem?.1 ho
            exact hn ⟨i, o, hi, hr⟩
          | jump m j h _ _ _ =>
            have := hd.symm.trans h; cases this
        simp [this] }
  exact hl.samePaths

end Teal.Lsp
