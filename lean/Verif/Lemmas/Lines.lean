import Verif.Spec.Source
import Verif.Model.Process
import Verif.Lemmas.LexesDet

/-! Lemmas about the lines `Process` splits the tokens into. -/

namespace Teal
open Spec

/-- The sequences of tokens the lexer produces, starting on line `l`. -/
inductive Seq : Nat → List Token → Prop
  | nil (l : Nat) : Seq l []
  | eol (l : Nat) (t : Token) (ts : List Token) (hl : t.l = l) (ht : t.t = .eol) (hb : t.b ≤ t.e)
      (h : Seq (l + 1) ts) : Seq l (t :: ts)
  | comment (l : Nat) (t : Token) (ts : List Token) (hl : t.l = l) (ht : t.t = .comment)
      (hb : t.b ≤ t.e) (hn : ∀ x ∈ ts.head?, x.t = .eol) (h : Seq l ts) : Seq l (t :: ts)
  | value (l : Nat) (t : Token) (ts : List Token) (hl : t.l = l) (ht : t.t = .value)
      (hb : t.b ≤ t.e) (hv : t.v ≠ []) (h : Seq l ts) : Seq l (t :: ts)

theorem lexes_head_break {l c : Nat} {src : Bytes} {ts : List Token} {err : Option (Nat × Nat)}
    (h : Lexes l c src ts err) (hr : AtEndOr Break src) : ∀ x ∈ ts.head?, x.t = .eol := by
  rcases hr with rfl | ⟨x, t, rfl, hx⟩
  · generalize hs : ([] : Bytes) = s at h
    cases h with
    | done => simp
    | blank => cases hs
    | eol l c raw rest ts err hraw h =>
      rcases hraw with rfl | rfl | ⟨rfl, -⟩ <;> cases hs
    | comment => cases hs
    | bare l c v rest ts err hne =>
      cases v with
      | nil => exact absurd rfl hne
      | cons => cases hs
    | quoted => cases hs
    | unterminated => cases hs
  · generalize hs : (x :: t : Bytes) = s at h
    cases h with
    | done => simp
    | blank l c y rest ts err hy h =>
      injection hs with h1 h2
      subst h1
      rcases hx with rfl | rfl <;> rcases hy with h | h <;> cases h
    | eol l c raw rest ts err hraw h => simp
    | comment l c v rest =>
      injection hs with h1 h2
      subst h1
      rcases hx with h | h <;> cases h
    | bare l c v rest ts err hne hq hsl hv =>
      cases v with
      | nil => exact absurd rfl hne
      | cons y v =>
        injection hs with h1 h2
        subst h1
        exact absurd (.inr hx) (hv x (by simp))
    | quoted l c body rest =>
      injection hs with h1 h2
      subst h1
      rcases hx with h | h <;> cases h
    | unterminated => simp

theorem seq_of_lexes {l c : Nat} {src : Bytes} {ts : List Token} {err : Option (Nat × Nat)}
    (h : Lexes l c src ts err) : Seq l ts := by
  induction h with
  | done => exact .nil _
  | blank l c x rest ts err hx h ih => exact ih
  | eol l c raw rest ts err hraw h ih => exact .eol _ _ _ rfl rfl (Nat.le_add_right _ _) ih
  | comment l c v rest ts err hv hrest h ih =>
    exact .comment _ _ _ rfl rfl (Nat.le_add_right _ _) (lexes_head_break h hrest) ih
  | bare l c v rest ts err hne hq hsl hv hrest h ih =>
    exact .value _ _ _ rfl rfl (Nat.le_add_right _ _) hne ih
  | quoted l c body rest ts err hbody hlast h ih =>
    exact .value _ _ _ rfl rfl (Nat.le_add_right _ _) (by simp) ih
  | unterminated => exact .nil _

theorem readTokens_seq (src : Bytes) : Seq 0 (readTokens src).1 := by
  obtain ⟨err, h, -⟩ := readTokens_lexes src
  exact seq_of_lexes h

theorem Seq.line_ge {l : Nat} {ts : List Token} (h : Seq l ts) : ∀ t ∈ ts, l ≤ t.l := by
  induction h with
  | nil => simp
  | eol l t ts hl ht hb h ih =>
    intro x hx
    rcases List.mem_cons.1 hx with rfl | hx
    · omega
    · have := ih x hx; omega
  | comment l t ts hl ht hb hn h ih =>
    intro x hx
    rcases List.mem_cons.1 hx with rfl | hx
    · omega
    · exact ih x hx
  | value l t ts hl ht hb hv h ih =>
    intro x hx
    rcases List.mem_cons.1 hx with rfl | hx
    · omega
    · exact ih x hx

/-- The tokens of line `k` other than its end. -/
def onLine (ts : List Token) (k : Nat) : List Token :=
  ts.filter fun t => decide (t.l = k) && decide (t.t ≠ .eol)

theorem lineCount_cons (t : Token) (ts : List Token) :
    lineCount (t :: ts) = if ts = [] then t.l + 1 else lineCount ts := by
  cases ts with
  | nil => rfl
  | cons x xs => simp [lineCount, List.getLast?_cons_cons]

theorem onLine_cons (t : Token) (ts : List Token) (k : Nat) :
    onLine (t :: ts) k = if t.l = k ∧ t.t ≠ .eol then t :: onLine ts k else onLine ts k := by
  unfold onLine
  rw [List.filter_cons]
  simp only [Bool.and_eq_true, decide_eq_true_eq]

theorem onLine_append (a b : List Token) (k : Nat) : onLine (a ++ b) k = onLine a k ++ onLine b k :=
  List.filter_append ..

theorem onLine_nil_of_ge {l : Nat} {ts : List Token} (h : Seq l ts) {k : Nat} (hk : k < l) :
    onLine ts k = [] := by
  unfold onLine
  rw [List.filter_eq_nil_iff]
  intro t ht
  have := h.line_ge t ht
  simp only [Bool.and_eq_true, decide_eq_true_eq, not_and]
  intro h; omega

theorem Seq.lineCount_ge {l : Nat} {ts : List Token} (h : Seq l ts) (hts : ts ≠ []) :
    l + 1 ≤ lineCount ts := by
  unfold lineCount
  cases hg : ts.getLast? with
  | none => simp_all
  | some x =>
    have := h.line_ge x (List.mem_of_getLast? hg)
    simp; omega

theorem splitTokens_spec {l : Nat} {ts : List Token} (h : Seq l ts) : ∀ cur : List Token,
    (∀ t ∈ cur, t.l = l ∧ t.t ≠ .eol) →
    (splitTokens cur ts).length + l = max (if cur = [] then l else l + 1) (lineCount ts) ∧
    ∀ j, j < (splitTokens cur ts).length → (splitTokens cur ts)[j]? = some (onLine (cur ++ ts) (l + j)) := by
  have hcur0 : ∀ cur : List Token, ∀ l, (∀ t ∈ cur, t.l = l ∧ t.t ≠ .eol) → onLine cur l = cur := by
    intro cur l h
    unfold onLine
    rw [List.filter_eq_self]
    intro t ht
    have := h t ht
    simp [this.1, this.2]
  have hcurj : ∀ cur : List Token, ∀ l k, (∀ t ∈ cur, t.l = l ∧ t.t ≠ .eol) → k ≠ l → onLine cur k = [] := by
    intro cur l k h hk
    unfold onLine
    rw [List.filter_eq_nil_iff]
    intro t ht
    have := (h t ht).1
    simp only [Bool.and_eq_true, decide_eq_true_eq, not_and]
    intro h; omega
  induction h with
  | nil l =>
    intro cur hcur
    unfold splitTokens
    by_cases hc : cur = []
    · subst hc; simp [lineCount]
    · simp only [if_neg hc]
      refine ⟨by simp [lineCount]; omega, fun j hj => ?_⟩
      have : j = 0 := by simpa using hj
      subst this
      simp [hcur0 cur l hcur]
  | eol l t ts hl ht hb h ih =>
    intro cur hcur
    rw [splitTokens, if_pos ht]
    obtain ⟨ih1, ih2⟩ := ih [] (by simp)
    refine ⟨?_, fun j hj => ?_⟩
    · rw [List.length_cons, lineCount_cons]
      rw [if_pos rfl] at ih1
      by_cases hts : ts = []
      · subst hts
        rw [if_pos rfl]
        have : lineCount [] = 0 := rfl
        split <;> omega
      · rw [if_neg hts]
        have := h.lineCount_ge hts
        split <;> omega
    · cases j with
      | zero =>
        simp only [List.getElem?_cons_zero, Nat.add_zero]
        rw [onLine_append, hcur0 cur l hcur, onLine_cons, if_neg (by simp [ht]),
          onLine_nil_of_ge h (Nat.lt_succ_self _), List.append_nil]
      | succ j =>
        rw [List.getElem?_cons_succ, ih2 j (by simpa using hj), onLine_append cur,
          hcurj cur l _ hcur (by omega), onLine_cons t, if_neg (by simp [ht]), List.nil_append,
          List.nil_append, Nat.add_right_comm, Nat.add_assoc]
  | comment l t ts hl ht hb hn h ih =>
    intro cur hcur
    rw [splitTokens, if_neg (by simp [ht])]
    obtain ⟨ih1, ih2⟩ := ih (cur ++ [t]) (by
      intro x hx
      rcases List.mem_append.1 hx with hx | hx
      · exact hcur x hx
      · rw [List.mem_singleton.1 hx]; exact ⟨hl, by simp [ht]⟩)
    refine ⟨?_, fun j hj => by rw [ih2 j hj]; simp⟩
    rw [ih1, if_neg (by simp), lineCount_cons]
    by_cases hts : ts = []
    · subst hts; simp only [lineCount, hl]; split <;> simp
    · rw [if_neg hts]
      have := h.lineCount_ge hts
      split <;> omega
  | value l t ts hl ht hb hv h ih =>
    intro cur hcur
    rw [splitTokens, if_neg (by simp [ht])]
    obtain ⟨ih1, ih2⟩ := ih (cur ++ [t]) (by
      intro x hx
      rcases List.mem_append.1 hx with hx | hx
      · exact hcur x hx
      · rw [List.mem_singleton.1 hx]; exact ⟨hl, by simp [ht]⟩)
    refine ⟨?_, fun j hj => by rw [ih2 j hj]; simp⟩
    rw [ih1, if_neg (by simp), lineCount_cons]
    by_cases hts : ts = []
    · subst hts; simp only [lineCount, hl]; split <;> simp
    · rw [if_neg hts]
      have := h.lineCount_ge hts
      split <;> omega

/-- What `Process` reads of line `k`: its words, or its comment if it has no words. -/
def lineTokens (ts : List Token) (k : Nat) : List Token :=
  if words ts k = [] then comments ts k else words ts k

theorem words_cons (t : Token) (ts : List Token) (k : Nat) :
    words (t :: ts) k = if t.l = k ∧ t.t = .value then t :: words ts k else words ts k := by
  unfold words
  rw [List.filter_cons]
  simp only [Bool.and_eq_true, decide_eq_true_eq]

theorem comments_cons (t : Token) (ts : List Token) (k : Nat) :
    comments (t :: ts) k = if t.l = k ∧ t.t = .comment then t :: comments ts k else comments ts k := by
  unfold comments
  rw [List.filter_cons]
  simp only [Bool.and_eq_true, decide_eq_true_eq]

theorem words_sub_onLine {ts : List Token} {k : Nat} (h : onLine ts k = []) :
    words ts k = [] ∧ comments ts k = [] := by
  unfold onLine at h
  unfold words comments
  rw [List.filter_eq_nil_iff] at h ⊢
  rw [List.filter_eq_nil_iff]
  constructor <;> intro t ht <;> have := h t ht <;>
    simp only [Bool.and_eq_true, decide_eq_true_eq, not_and] at this ⊢ <;> intro h1 h2 <;>
    exact this h1 (by simp [h2])

theorem onLine_split {l : Nat} {ts : List Token} (h : Seq l ts) (k : Nat) :
    onLine ts k = words ts k ++ comments ts k ∧ (comments ts k).length ≤ 1 := by
  induction h with
  | nil => exact ⟨rfl, Nat.zero_le _⟩
  | eol l t ts hl ht hb h ih =>
    rw [onLine_cons, words_cons, comments_cons, if_neg (by simp [ht]), if_neg (by simp [ht]),
      if_neg (by simp [ht])]
    exact ih
  | comment l t ts hl ht hb hn h ih =>
    rw [onLine_cons, words_cons, comments_cons, if_neg (c := t.l = k ∧ t.t = .value) (by simp [ht])]
    by_cases hk : t.l = k
    · have h0 : onLine ts k = [] := by
        cases h with
        | nil => rfl
        | eol l t' ts hl' ht' hb' h' =>
          rw [onLine_cons, if_neg (by simp [ht'])]
          exact onLine_nil_of_ge h' (by omega)
        | comment l t' ts hl' ht' => have := hn t' (by simp); rw [ht'] at this; cases this
        | value l t' ts hl' ht' => have := hn t' (by simp); rw [ht'] at this; cases this
      rw [if_pos ⟨hk, by simp [ht]⟩, if_pos ⟨hk, ht⟩, h0, (words_sub_onLine h0).1, (words_sub_onLine h0).2]
      exact ⟨rfl, Nat.le_refl _⟩
    · rw [if_neg (by simp [hk]), if_neg (by simp [hk])]
      exact ih
  | value l t ts hl ht hb hv h ih =>
    rw [onLine_cons, words_cons, comments_cons, if_neg (c := t.l = k ∧ t.t = .comment) (by simp [ht])]
    by_cases hk : t.l = k
    · rw [if_pos ⟨hk, by simp [ht]⟩, if_pos ⟨hk, ht⟩, ih.1]
      exact ⟨rfl, ih.2⟩
    · rw [if_neg (by simp [hk]), if_neg (by simp [hk])]
      exact ih

theorem cutComment_spec (ws cs : List Token) (hw : ∀ t ∈ ws, t.t = .value)
    (hc : ∀ t ∈ cs, t.t = .comment) (hlen : cs.length ≤ 1) :
    cutComment (ws ++ cs) = if ws = [] then cs else ws := by
  have hget : ∀ i, i < ws.length → ((ws ++ cs).getD i .zero).t = .value := by
    intro i hi
    rw [List.getD_eq_getElem?_getD, List.getElem?_append_left hi, List.getElem?_eq_getElem hi]
    exact hw _ (List.getElem_mem _)
  cases cs with
  | nil =>
    unfold cutComment
    have : ((List.range (ws ++ []).length).reverse.find? fun i =>
        1 ≤ i && decide (((ws ++ []).getD i .zero).t = .comment)) = none := by
      rw [List.find?_eq_none]
      intro i hi
      have := hget i (by simpa using hi)
      simp only [this]
      simp
    rw [this]
    by_cases h : ws = []
    · subst h; rfl
    · simp [h]
  | cons x cs =>
    have : cs = [] := by cases cs with | nil => rfl | cons => simp at hlen
    subst this
    have hx : x.t = .comment := hc x (by simp)
    unfold cutComment
    have hr : (List.range (ws ++ [x]).length).reverse = ws.length :: (List.range ws.length).reverse := by
      rw [List.length_append, List.length_singleton, List.range_succ, List.reverse_append]; rfl
    rw [hr]
    by_cases h : ws = []
    · subst h; rfl
    · have : 1 ≤ ws.length := List.length_pos_iff.2 h
      rw [List.find?_cons_of_pos (by simp [hx, this]), if_neg h]
      simp

theorem sourceLines_spec (ts : List Token) (h : Seq 0 ts) :
    (sourceLines ts).length = lineCount ts ∧
    ∀ k, k < lineCount ts → (sourceLines ts)[k]? = some (lineTokens ts k) := by
  obtain ⟨h1, h2⟩ := splitTokens_spec h [] (by simp)
  have hl : (sourceLines ts).length = lineCount ts := by
    unfold sourceLines
    rw [List.length_map]
    simp only [if_true, Nat.add_zero, Nat.zero_max] at h1
    exact h1
  refine ⟨hl, fun k hk => ?_⟩
  unfold sourceLines at hl ⊢
  rw [List.length_map] at hl
  rw [List.getElem?_map, h2 k (by omega)]
  obtain ⟨h3, h4⟩ := onLine_split h k
  simp only [Option.map_some, List.nil_append, Nat.zero_add]
  rw [h3, cutComment_spec _ _ _ _ h4]
  · rfl
  · intro t ht
    have := (List.mem_filter.1 ht).2
    simp only [Bool.and_eq_true, decide_eq_true_eq] at this
    exact this.2
  · intro t ht
    have := (List.mem_filter.1 ht).2
    simp only [Bool.and_eq_true, decide_eq_true_eq] at this
    exact this.2

/-- Behind the last line there is nothing. -/
theorem lineTokens_nil {l : Nat} {ts : List Token} (h : Seq l ts) (k : Nat) (hk : lineCount ts ≤ k) :
    lineTokens ts k = [] ∧ words ts k = [] := by
  have : onLine ts k = [] := by
    unfold onLine
    rw [List.filter_eq_nil_iff]
    intro t ht
    have hle : t.l < lineCount ts := by
      clear hk
      induction h with
      | nil => cases ht
      | eol l x ts hl hx hb h ih =>
        rw [lineCount_cons]
        rcases List.mem_cons.1 ht with rfl | ht
        · split
          · omega
          · have := h.lineCount_ge (by assumption); omega
        · rw [if_neg (List.ne_nil_of_mem ht)]; exact ih ht
      | comment l x ts hl hx hb hn h ih =>
        rw [lineCount_cons]
        rcases List.mem_cons.1 ht with rfl | ht
        · split
          · omega
          · have := h.lineCount_ge (by assumption); omega
        · rw [if_neg (List.ne_nil_of_mem ht)]; exact ih ht
      | value l x ts hl hx hb hv h ih =>
        rw [lineCount_cons]
        rcases List.mem_cons.1 ht with rfl | ht
        · split
          · omega
          · have := h.lineCount_ge (by assumption); omega
        · rw [if_neg (List.ne_nil_of_mem ht)]; exact ih ht
    simp only [Bool.and_eq_true, decide_eq_true_eq, not_and]
    intro; omega
  have := words_sub_onLine this
  unfold lineTokens
  rw [this.1, this.2]
  simp

/-- What is known of the tokens of one line. -/
structure LineOk (k : Nat) (line : List Token) : Prop where
  mem : ∀ t ∈ line, t.l = k ∧ t.b ≤ t.e
  shape : (∃ c, line = [c] ∧ c.t = .comment) ∨ ∀ t ∈ line, t.t = .value ∧ t.v ≠ []

theorem Seq.tok {l : Nat} {ts : List Token} (h : Seq l ts) : ∀ t ∈ ts, t.b ≤ t.e ∧
    (t.t = .value → t.v ≠ []) := by
  induction h with
  | nil => simp
  | eol l x ts hl hx hb h ih =>
    intro t ht
    rcases List.mem_cons.1 ht with rfl | ht
    · exact ⟨hb, by simp [hx]⟩
    · exact ih t ht
  | comment l x ts hl hx hb hn h ih =>
    intro t ht
    rcases List.mem_cons.1 ht with rfl | ht
    · exact ⟨hb, by simp [hx]⟩
    · exact ih t ht
  | value l x ts hl hx hb hv h ih =>
    intro t ht
    rcases List.mem_cons.1 ht with rfl | ht
    · exact ⟨hb, fun _ => hv⟩
    · exact ih t ht

theorem mem_words {ts : List Token} {k : Nat} {t : Token} :
    t ∈ words ts k ↔ t ∈ ts ∧ t.l = k ∧ t.t = .value := by
  unfold words
  rw [List.mem_filter]
  simp only [Bool.and_eq_true, decide_eq_true_eq]

theorem mem_comments {ts : List Token} {k : Nat} {t : Token} :
    t ∈ comments ts k ↔ t ∈ ts ∧ t.l = k ∧ t.t = .comment := by
  unfold comments
  rw [List.mem_filter]
  simp only [Bool.and_eq_true, decide_eq_true_eq]

theorem lineOk {l : Nat} {ts : List Token} (h : Seq l ts) (k : Nat) : LineOk k (lineTokens ts k) := by
  unfold lineTokens
  by_cases hw : words ts k = []
  · rw [if_pos hw]
    refine ⟨fun t ht => ?_, ?_⟩
    · have := mem_comments.1 ht
      exact ⟨this.2.1, (h.tok t this.1).1⟩
    · have hlen := (onLine_split h k).2
      cases hc : comments ts k with
      | nil => right; simp
      | cons c cs =>
        left
        have : cs = [] := by
          rw [hc] at hlen
          cases cs with | nil => rfl | cons => simp at hlen
        subst this
        exact ⟨c, rfl, (mem_comments.1 (hc ▸ List.mem_cons_self)).2.2⟩
  · rw [if_neg hw]
    refine ⟨fun t ht => ?_, .inr fun t ht => ?_⟩
    · have := mem_words.1 ht
      exact ⟨this.2.1, (h.tok t this.1).1⟩
    · have := mem_words.1 ht
      exact ⟨this.2.2, (h.tok t this.1).2 this.2.2⟩

theorem seq_line_le {l : Nat} {ts : List Token} (h : Seq l ts) :
    ∀ t ∈ ts, t.l ≤ l + (ts.filter (fun t => decide (t.t = .eol))).length := by
  induction h with
  | nil => simp
  | eol l t ts hl ht hb h ih =>
    intro x hx
    rw [List.filter_cons_of_pos (by simp [ht]), List.length_cons]
    rcases List.mem_cons.1 hx with rfl | hx
    · omega
    · have := ih x hx; omega
  | comment l t ts hl ht hb hn h ih =>
    intro x hx
    rw [List.filter_cons_of_neg (by simp [ht])]
    rcases List.mem_cons.1 hx with rfl | hx
    · omega
    · exact ih x hx
  | value l t ts hl ht hb hv h ih =>
    intro x hx
    rw [List.filter_cons_of_neg (by simp [ht])]
    rcases List.mem_cons.1 hx with rfl | hx
    · omega
    · exact ih x hx

end Teal
