import Verif.Spec.Utf16
import Verif.Props.Edit
import Verif.Props.WireOut

/-!
# C105: columns for editors that count UTF-16 code units
-/

namespace Teal.Props

open Teal Teal.Spec Teal.JsonSpec Teal.WireSpec Teal.Lsp Teal.Lsp.Spec

theorem units_ascii {s : Bytes} (h : ∀ c ∈ s, c < 128) : Units s s.length := by
  induction s with
  | nil => exact .nil
  | cons c s ih =>
    have hc : c.toNat < 128 := UInt8.lt_iff_toNat_lt.1 (h c (by simp))
    have := Units.cons (n := c.toNat) (.inl (by omega)) (ih fun x hx => h x (by simp [hx]))
    rw [if_pos (by omega)] at this
    unfold utf8 at this
    rw [if_pos hc, toUInt8_toNat] at this
    rw [List.length_cons, Nat.add_comm]
    exact this

theorem units_unique {s : Bytes} {n m : Nat} (h : Units s n) (h' : Units s m) : n = m := by
  induction h generalizing m with
  | nil =>
    generalize e : ([] : Bytes) = s at h'
    cases h' with
    | nil => rfl
    | @cons k _ s hk =>
      obtain ⟨c, t, hc, -⟩ := utf8_cons k
      rw [hc] at e; simp at e
  | @cons a i s ha hs ih =>
    generalize e : utf8 a ++ s = s' at h'
    cases h' with
    | nil =>
      obtain ⟨c, t, hc, -⟩ := utf8_cons a
      rw [hc] at e; simp at e
    | @cons b j s' hb hs' =>
      have h1 := decodeRune_utf8 ha s
      rw [e, decodeRune_utf8 hb s'] at h1
      obtain rfl : b = a := congrArg Prod.fst h1
      rw [ih (by rw [List.append_cancel_left e]; exact hs')]

theorem lastLine_split (s : Bytes) : ∃ a, s = a ++ lastLine s ∧ (lastLine s).length = column s ∧ ∀ x ∈ lastLine s, ¬ Break x := by
  have hle : column s ≤ s.length := by
    unfold column
    have := (List.takeWhile_sublist (fun c => !(c == chCR || c == chLF)) (l := s.reverse)).length_le
    rwa [List.length_reverse] at this
  have e : lastLine s = (s.reverse.takeWhile (fun c => !(c == chCR || c == chLF))).reverse := by
    unfold lastLine
    have h1 : s = (s.reverse.dropWhile (fun c => !(c == chCR || c == chLF))).reverse ++
        (s.reverse.takeWhile (fun c => !(c == chCR || c == chLF))).reverse := by
      rw [← List.reverse_append, List.takeWhile_append_dropWhile, List.reverse_reverse]
    have hl := congrArg List.length h1
    rw [List.length_append, List.length_reverse, List.length_reverse] at hl
    have : s.length - column s = ((s.reverse.dropWhile (fun c => !(c == chCR || c == chLF))).reverse).length := by
      unfold column; rw [List.length_reverse]; omega
    rw [this]
    conv => lhs; arg 2; rw [h1]
    rw [List.drop_left]
  refine ⟨s.take (s.length - column s), (List.take_append_drop _ _).symm, ?_, ?_⟩
  · unfold lastLine; rw [List.length_drop]; omega
  · intro x hx
    rw [e, List.mem_reverse] at hx
    have := List.all_eq_true.1 (List.all_takeWhile (l := s.reverse) (p := fun c => !(c == chCR || c == chLF))) x hx
    simp only [Bool.not_eq_true', Bool.or_eq_false_iff, beq_eq_false_iff_ne] at this
    rintro (rfl | rfl)
    · exact this.1 rfl
    · exact this.2 rfl

/-- On a line of ASCII characters columns are the same. -/
theorem at16_of_at {src : Bytes} {l c o : Nat} (hl : AsciiLine src l) (h : At src l c o) : At16 src l c o := by
  obtain ⟨pre, post, rfl, rfl, h1, h2, h3⟩ := h
  refine ⟨pre, post, rfl, rfl, h1, ?_, h3⟩
  obtain ⟨a, e, hlen, hb⟩ := lastLine_split pre
  rw [← h2, ← hlen]
  apply units_ascii
  intro x hx
  obtain ⟨u, v, hu⟩ := List.append_of_mem hx
  have hub : ∀ y ∈ u, ¬ Break y := fun y hy => hb y (by rw [hu]; simp [hy])
  have hvb : ∀ y ∈ x :: v, ¬ Break y := fun y hy => hb y (by rw [hu]; exact List.mem_append_right _ hy)
  have e' : pre = (a ++ u) ++ x :: v := by rw [List.append_assoc, ← hu]; exact e
  refine hl (column (a ++ u)) (a ++ u).length x ⟨a ++ u, x :: v ++ post, by rw [← List.append_assoc, ← e'], rfl, ?_, rfl, ?_⟩ ?_
  · rw [← h1, e', breaks_snoc_nobreak _ _ hvb]
  · rintro ⟨-, h⟩
    rw [List.cons_append, List.head?_cons, Option.some.injEq] at h
    exact hvb x (by simp) (.inr h)
  · rw [e', List.append_assoc, List.getElem?_append_right (Nat.le_refl _)]
    simp

/-- A position has one offset. -/
theorem C105_position {src : Bytes} {l : Nat} (hl : AsciiLine src l) (c o : Nat) : At16 src l c o ↔ At src l c o := by
  refine ⟨?_, at16_of_at hl⟩
  rintro ⟨pre, post, rfl, rfl, h1, h2, h3⟩
  have h : At (pre ++ post) l (column pre) pre.length := ⟨pre, post, rfl, rfl, h1, rfl, h3⟩
  obtain ⟨a, e, hlen, -⟩ := lastLine_split pre
  have : Units (lastLine pre) (column pre) := by
    obtain ⟨pre', post', e1, e2, -, h4, -⟩ := at16_of_at hl h
    obtain rfl : pre = pre' := (List.append_inj e1 e2.symm).1
    exact h4
  rw [units_unique h2 this]
  exact h

/-- C105 (partial: for edits on lines of ASCII characters; see `C105_false`.)  An editor that counts UTF-16 code units gets the
text that the edits of the server are meant to give. -/
theorem C105_partial {src src' : Bytes} {es : List TextEdit} (h : Edited src es src')
    (ha : ∀ e ∈ es, ∀ l : Nat, (l : Int) = e.range.start.line ∨ (l : Int) = e.range.stop.line → AsciiLine src l) :
    Edited16 src es src' := by
  have key : ∀ e ∈ es, ∀ c, IsCut src e c → IsCut16 src e c := by
    rintro e he c ⟨l, b, l', b', h1, h2, h3, h4⟩
    exact ⟨l, b, l', b', h1, at16_of_at (ha e he l (.inl (by rw [h1]))) h2, at16_of_at (ha e he l' (.inr (by rw [h1]))) h3, h4⟩
  obtain ⟨cuts, h1, h2, h3, h4, h5⟩ := h
  refine ⟨cuts, ?_, ?_, h3, h4, h5⟩
  · intro e he
    obtain ⟨c, hc, hi⟩ := h1 e he
    exact ⟨c, hc, key e he c hi⟩
  · intro c hc
    obtain ⟨e, he, hi⟩ := h2 c hc
    exact ⟨e, he, key e he c hi⟩

theorem at16_of (pre post : Bytes) (l c o : Nat) (h : pre.length = o) (h1 : breaks pre = l) (h2 : Units (lastLine pre) c)
    (h3 : ¬ (pre.getLast? = some chCR ∧ post.head? = some chLF)) : At16 (pre ++ post) l c o := ⟨pre, post, rfl, h, h1, h2, h3⟩

/-- C74 for editors that count UTF-16 code units and texts of ASCII characters. -/
theorem C105_rename (h : Host) (ms : List (Choice × Msg)) (u src : Bytes) (hsrc : ∀ x ∈ src, x < 128) (p : Pos) (new : Bytes) (a : Result)
    (ha : Answered h ms u src (.rename p new) a) (t : Token) (n : Bytes) (ht : Under (tokens src) p t n)
    (hu : ∀ t' n', Under (tokens src) p t' n' → t' = t) (hq : n.head? ≠ some chQuote) (hnew : PlainWord new)
    (hone : ∀ t ∈ tokens src, t.t = .value → ∀ x ∈ t.v, ¬ Break x)
    (env : Env) (r : ProcessResult) (hr : process env src = some r) (hs : NoSurplus r) :
    ∃ es src', a = .workspaceEdit u es ∧ Edited16 src es src' ∧
      ∃ r', process env src' = some r' ∧ r'.listing = r.listing.map (renamed n new) ∧ r'.version = r.version := by
  obtain ⟨es, src', h1, h2, h3⟩ := C74_partial h ms u src p new a ha t n ht hu hq hnew hone env r hr hs
  exact ⟨es, src', h1, C105_partial h2 fun _ _ _ _ _ _ _ _ hx => hsrc _ (List.mem_of_getElem? hx), h3⟩

/-- A sign beyond the first plane counts twice, an accented letter once. -/
example : Units b!"é" 1 ∧ Units b!"😀" 2 :=
  ⟨.cons (n := 0xE9) (.inl (by decide)) .nil, .cons (n := 0x1F600) (.inr (by decide)) .nil⟩

/-- The case: the renaming of a label behind a line that is not ASCII. -/
example : ∃ es src', Answered sampleHost (openSession b!"// é\nx:") b!"u" b!"// é\nx:" (.rename ⟨1, 0⟩ b!"y") (.workspaceEdit b!"u" es) ∧
    Edited b!"// é\nx:" es src' ∧ src' = b!"// é\ny:" ∧ Edited16 b!"// é\nx:" es src' := by
  have he : Edited b!"// é\nx:" [⟨Lsp.onLine 1 0 1, b!"y"⟩] b!"// é\ny:" := by
    have h1 : IsCut b!"// é\nx:" ⟨Lsp.onLine 1 0 1, b!"y"⟩ ⟨6, 7, b!"y"⟩ :=
      ⟨1, 0, 1, 1, rfl, at_of b!"// é\n" b!"x:" 1 0 6 rfl (by decide) (by decide) (by decide),
        at_of b!"// é\nx" b!":" 1 1 7 rfl (by decide) (by decide) (by decide), rfl⟩
    exact ⟨[⟨6, 7, b!"y"⟩], by simpa using h1, by simpa using h1, by simp, by simp, by decide +kernel⟩
  refine ⟨_, _, open_answered _ _ _ (by decide +kernel), he, rfl, C105_partial he ?_⟩
  intro e hx l hl
  rw [List.mem_singleton.1 hx] at hl
  obtain rfl : l = 1 := by simp [Lsp.onLine] at hl; omega
  rintro c o x ⟨pre, post, e1, e2, e3, -, -⟩ hx
  subst e2
  have hp : pre = (b!"// é\nx:").take pre.length := by rw [e1, List.take_left]
  have hk : 6 ≤ pre.length := by
    generalize pre.length = k at hp
    apply Classical.byContradiction
    intro hlt
    obtain h | h | h | h | h | h : k = 0 ∨ k = 1 ∨ k = 2 ∨ k = 3 ∨ k = 4 ∨ k = 5 := by omega
    all_goals subst h; rw [hp] at e3; revert e3; decide +kernel
  generalize pre.length = k at hx hk
  obtain rfl | rfl | h : k = 6 ∨ k = 7 ∨ 8 ≤ k := by omega
  · simp at hx; subst hx; decide
  · simp at hx; subst hx; decide
  · rw [List.getElem?_eq_none (by simpa using h)] at hx; cases hx

/-- C105 is false on other lines: the edits for renaming the label `é` to `y` count bytes, so that the
editor takes the colon away with the name. -/
theorem C105_false : ∃ es, Answered sampleHost (openSession b!"é:\nerr") b!"u" b!"é:\nerr" (.rename ⟨0, 0⟩ b!"y") (.workspaceEdit b!"u" es) ∧
    Edited b!"é:\nerr" es b!"y:\nerr" ∧ ∀ src', Edited16 b!"é:\nerr" es src' ↔ src' = b!"y\nerr" := by
  refine ⟨[⟨Lsp.onLine 0 0 2, b!"y"⟩], open_answered _ _ _ (by decide +kernel), ?_, fun src' => ⟨?_, ?_⟩⟩
  · have h1 : IsCut b!"é:\nerr" ⟨Lsp.onLine 0 0 2, b!"y"⟩ ⟨0, 2, b!"y"⟩ :=
      ⟨0, 0, 0, 2, rfl, at_of b!"" b!"é:\nerr" 0 0 0 rfl (by decide) (by decide) (by decide),
        at_of b!"é" b!":\nerr" 0 2 2 rfl (by decide) (by decide) (by decide), rfl⟩
    exact ⟨[⟨0, 2, b!"y"⟩], by simpa using h1, by simpa using h1, by simp, by simp, by decide +kernel⟩
  · have ue : Units b!"é" 1 := .cons (n := 0xE9) (.inl (by decide)) .nil
    have uc : Units b!"é:" 2 := .cons (n := 0xE9) (.inl (by decide)) (.cons (n := 58) (.inl (by decide)) .nil)
    have one : ∀ n, ¬ Units [195] n := by
      intro n h
      generalize e : ([195] : Bytes) = s at h
      cases h with
      | nil => simp at e
      | @cons m _ s hm =>
        have := decodeRune_utf8 hm s
        rw [← e] at this
        have h1 : decodeRune [195] = (65533, 1) := by decide
        rw [h1] at this
        obtain rfl : 65533 = m := congrArg Prod.fst this
        have h2 : (1 : Nat) = (utf8 65533).length := congrArg Prod.snd this
        revert h2; decide
    have at' : ∀ c o, At16 b!"é:\nerr" 0 c o → c = 0 ∧ o = 0 ∨ c = 1 ∧ o = 2 ∨ c = 2 ∧ o = 3 := by
      rintro c o ⟨pre, post, e1, e2, e3, e4, -⟩
      subst e2
      have hp : pre = (b!"é:\nerr").take pre.length := by rw [e1, List.take_left]
      have hle : pre.length ≤ 7 := by have := congrArg List.length e1; simp at this; omega
      generalize pre.length = k at hp hle ⊢
      obtain h | h | h | h | h | h | h | h : k = 0 ∨ k = 1 ∨ k = 2 ∨ k = 3 ∨ k = 4 ∨ k = 5 ∨ k = 6 ∨ k = 7 := by omega
      · subst h; subst hp; exact .inl ⟨units_unique e4 .nil, rfl⟩
      · subst h; subst hp; exact absurd e4 (one _)
      · subst h; subst hp; exact .inr (.inl ⟨units_unique e4 ue, rfl⟩)
      · subst h; subst hp; exact .inr (.inr ⟨units_unique e4 uc, rfl⟩)
      all_goals exfalso; subst h; subst hp; revert e3; decide +kernel
    rintro ⟨cuts, h1, h2, -, h4, rfl⟩
    have hc : ∀ c ∈ cuts, c = ⟨0, 3, b!"y"⟩ := by
      intro c hc
      obtain ⟨e, he, l, b, l', b', h5, h6, h7, h8⟩ := h2 c hc
      rw [List.mem_singleton.1 he] at h5 h8
      simp only [Lsp.onLine, Lsp.Rg.mk.injEq, Lsp.Pos.mk.injEq] at h5
      obtain rfl : l = 0 := by omega
      obtain rfl : l' = 0 := by omega
      have h6 := at' _ _ h6
      have h7 := at' _ _ h7
      obtain ⟨x, y, z⟩ := c
      simp only at h6 h7 h8
      rw [← h8]
      simp only [Cut.mk.injEq, and_true]
      omega
    cases cuts with
    | nil => obtain ⟨c, hc, -⟩ := h1 _ (List.mem_singleton.2 rfl); cases hc
    | cons c cuts =>
      have h5 := hc c (by simp)
      cases cuts with
      | nil => rw [h5]; decide +kernel
      | cons d cuts =>
        have h6 := hc d (by simp)
        have := (List.pairwise_cons.1 h4).1 d (by simp)
        rw [h5, h6] at this
        simp at this
  · rintro rfl
    have h1 : IsCut16 b!"é:\nerr" ⟨Lsp.onLine 0 0 2, b!"y"⟩ ⟨0, 3, b!"y"⟩ :=
      ⟨0, 0, 0, 2, rfl, at16_of b!"" b!"é:\nerr" 0 0 0 rfl (by decide) .nil (by decide),
        at16_of b!"é:" b!"\nerr" 0 2 3 rfl (by decide)
          (.cons (n := 0xE9) (.inl (by decide)) (.cons (n := 58) (.inl (by decide)) .nil)) (by decide), rfl⟩
    exact ⟨[⟨0, 3, b!"y"⟩], by simpa using h1, by simpa using h1, by simp, by simp, by decide +kernel⟩

end Teal.Props
