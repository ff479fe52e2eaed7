import Verif.Spec.Text
import Verif.Lemmas.LineOps
import Verif.Lemmas.LexesCompose

/-! Reading programs that are written out. -/

namespace Teal
open Spec

theorem unescape_eq {s u : Bytes} (h : Unescaped s u) : u = unescapeQuotes s := by
  induction h with
  | nil => rfl
  | esc t u h ih => rw [unescapeQuotes, if_pos ⟨rfl, rfl⟩, ih]
  | keep c t u hc h ih =>
    cases t with
    | nil => cases h; rfl
    | cons d t =>
      rw [unescapeQuotes, if_neg (fun h => hc ⟨h.1, by simp [h.2]⟩), ih]

theorem lexes_line {raws vs : List Bytes} (h : WritesAll raws vs) (l : Nat) (rest : Bytes) (ts : List Token)
    (hrest : AtEndOr Break rest) (hr : ∀ c, ∃ us, Lexes l c rest us none ∧ us.map (fun t => (t.l, t.v, t.t)) = ts.map (fun t => (t.l, t.v, t.t))) :
    ∀ c, ∃ us, Lexes l c (lineText raws ++ rest) us none ∧
      us.map (fun t => (t.l, t.v, t.t)) = vs.map (fun v => (l, v, TokenType.value)) ++ ts.map (fun t => (t.l, t.v, t.t)) := by
  induction h with
  | nil => exact hr
  | cons raw v raws vs hw h' ih =>
    have hone : ∀ (more : Bytes) (us : List Token) (c : Nat) , AtEndOr Stop more → (∀ c, ∃ us', Lexes l c more us' none ∧ us'.map (fun t => (t.l, t.v, t.t)) = us.map (fun t => (t.l, t.v, t.t))) →
        ∃ us', Lexes l c (raw ++ more) us' none ∧ us'.map (fun t => (t.l, t.v, t.t)) = (l, v, TokenType.value) :: us.map (fun t => (t.l, t.v, t.t)) := by
      intro more us c hm hus
      cases hw with
      | bare _ hne hq hsl hv =>
        obtain ⟨us', h1, h2⟩ := hus (c + raw.length)
        exact ⟨_, .bare l c raw more us' none hne hq hsl hv hm h1, by rw [List.map_cons, h2]⟩
      | quoted body u hu hb hl =>
        obtain ⟨us', h1, h2⟩ := hus (c + (body.length + 2))
        refine ⟨⟨chQuote :: (unescapeQuotes body ++ [chQuote]), l, c, c + (body.length + 2), .value⟩ :: us', ?_, by rw [List.map_cons, h2, ← unescape_eq hu]⟩
        have := Lexes.quoted l c body more us' none hb hl h1
        simpa using this
    intro c
    have hrest' : AtEndOr Stop rest := by
      rcases hrest with h | ⟨x, t, h, hx⟩
      · exact .inl h
      · exact .inr ⟨x, t, h, .inr hx⟩
    cases h' with
    | nil =>
      exact hone rest ts c hrest' hr
    | cons raw' v' raws vs hw' h' =>
      rw [show lineText (raw :: raw' :: raws) = raw ++ chSpace :: lineText (raw' :: raws) from rfl, List.append_assoc, List.cons_append]
      obtain ⟨us0, _, hu0⟩ := ih 0
      obtain ⟨us', h1, h2⟩ := hone (chSpace :: (lineText (raw' :: raws) ++ rest)) us0 c (.inr ⟨_, _, rfl, .inl (.inl rfl)⟩) (by
        intro c
        obtain ⟨us, h1, h2⟩ := ih (c + 1)
        exact ⟨us, .blank _ _ _ _ _ _ (.inl rfl) h1, h2.trans hu0.symm⟩)
      exact ⟨us', h1, by rw [h2, hu0]; rfl⟩

/-- The tokens of written lines, without their columns. -/
def lineKeys (l : Nat) : List (List Bytes) → List (Nat × Bytes × TokenType)
  | [] => []
  | vs :: ls => vs.map (fun v => (l, v, .value)) ++ (l, [chLF], .eol) :: lineKeys (l + 1) ls

theorem lexes_written {raws vs : List (List Bytes)} (h : WritesLines raws vs) : ∀ l,
    ∃ us, Lexes l 0 (linesText raws) us none ∧ us.map (fun t => (t.l, t.v, t.t)) = lineKeys l vs := by
  induction h with
  | nil => exact fun l => ⟨[], .done _ _, rfl⟩
  | cons raw v raws vs hw h' ih =>
    intro l
    obtain ⟨us, h1, h2⟩ := ih (l + 1)
    have := lexes_line hw l (chLF :: linesText raws) (⟨[chLF], l, 0, 0, .eol⟩ :: us) (.inr ⟨_, _, rfl, .inr rfl⟩) (by
      intro c
      exact ⟨_, .eol l c [chLF] (linesText raws) us none (.inl rfl) h1, rfl⟩) 0
    obtain ⟨us', h3, h4⟩ := this
    refine ⟨us', ?_, ?_⟩
    · rw [linesText, List.flatMap_cons, List.append_assoc]; exact h3
    · rw [h4, List.map_cons, h2]; rfl

theorem words_keys (ts : List Token) (k : Nat) : (words ts k).map Token.v =
    ((ts.map (fun t => (t.l, t.v, t.t))).filter fun x => decide (x.1 = k) && decide (x.2.2 = .value)).map (·.2.1) := by
  unfold words
  rw [List.filter_map, List.map_map]
  rfl

theorem lineKeys_ge (vs : List (List Bytes)) : ∀ l, ∀ x ∈ lineKeys l vs, l ≤ x.1 := by
  induction vs with
  | nil => intro l x hx; cases hx
  | cons v vs ih =>
    intro l x hx
    rcases List.mem_append.1 hx with h | h
    · obtain ⟨w, _, rfl⟩ := List.mem_map.1 h; exact Nat.le_refl _
    · rcases List.mem_cons.1 h with rfl | h
      · exact Nat.le_refl _
      · have := ih _ x h; omega

theorem lineKeys_words (vs : List (List Bytes)) : ∀ l k,
    ((lineKeys l vs).filter fun x => decide (x.1 = l + k) && decide (x.2.2 = .value)).map (·.2.1) = (vs[k]?).getD [] := by
  induction vs with
  | nil => intro l k; rfl
  | cons v vs ih =>
    intro l k
    rw [lineKeys, List.filter_append, List.map_append]
    cases k with
    | zero =>
      rw [List.filter_eq_self.2, List.filter_eq_nil_iff.2]
      · simp [Function.comp_def]
      · intro x hx
        rcases List.mem_cons.1 hx with rfl | h
        · simp
        · have := lineKeys_ge _ _ x h
          simp only [Bool.and_eq_true, decide_eq_true_eq, not_and]
          omega
      · intro x hx
        obtain ⟨w, _, rfl⟩ := List.mem_map.1 hx
        simp
    | succ k =>
      rw [List.filter_eq_nil_iff.2]
      · rw [List.filter_cons_of_neg (by simp), show l + (k + 1) = l + 1 + k by omega, ih]
        rfl
      · intro x hx
        obtain ⟨w, _, rfl⟩ := List.mem_map.1 hx
        simp

theorem lineKeys_count (vs : List (List Bytes)) : ∀ l, ((lineKeys l vs).getLast?.map (·.1 + 1)).getD l = l + vs.length := by
  induction vs with
  | nil => intro l; rfl
  | cons v vs ih =>
    intro l
    have := ih (l + 1)
    rw [lineKeys, List.getLast?_append, List.getLast?_cons]
    rw [List.length_cons]
    cases h : (lineKeys (l + 1) vs).getLast? with
    | none => rw [h] at this; simp at this ⊢; omega
    | some x => rw [h] at this; simp at this ⊢; omega

/-- The words and the number of lines of a written text. -/
theorem written {raws vs : List (List Bytes)} (h : WritesLines raws vs) :
    (readTokens (linesText raws)).2 = [] ∧ lineCount (readTokens (linesText raws)).1 = vs.length ∧
    ∀ k, (words (readTokens (linesText raws)).1 k).map Token.v = (vs[k]?).getD [] := by
  obtain ⟨us, h1, h2⟩ := lexes_written h 0
  rw [readTokens_of_lexes h1]
  refine ⟨rfl, ?_, ?_⟩
  · have := lineKeys_count vs 0
    rw [← h2, List.getLast?_map, Option.map_map, Nat.zero_add] at this
    exact this
  · intro k
    rw [words_keys, h2, ← lineKeys_words vs 0 k, Nat.zero_add]

end Teal
