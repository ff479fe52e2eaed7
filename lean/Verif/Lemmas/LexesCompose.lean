import Verif.Lemmas.LexesPieces

/-! Composition of lexings. -/

namespace Teal

open Spec

/-- Number of end-of-line tokens. -/
def eolCount (ts : List Token) : Nat := (ts.filter (fun t => decide (t.t = .eol))).length

theorem lexes_shift {l c : Nat} {s : Bytes} {ts : List Token} {err : Option (Nat × Nat)}
    (h : Lexes l c s ts err) (n : Nat) :
    Lexes (l + n) c s (ts.map (moveDown n)) (err.map (fun p => (p.1 + n, p.2))) := by
  induction h with
  | done => exact .done _ _
  | blank l c x rest ts err hx h ih => exact .blank _ _ _ _ _ _ hx ih
  | eol l c raw rest ts err hraw h ih =>
    rw [Nat.add_right_comm] at ih
    exact .eol _ _ _ _ _ _ hraw ih
  | comment l c v rest ts err hv hrest h ih => exact .comment _ _ _ _ _ _ hv hrest ih
  | bare l c v rest ts err hne hq hsl hv hrest h ih => exact .bare _ _ _ _ _ _ hne hq hsl hv hrest ih
  | quoted l c body rest ts err hb hl h ih => exact .quoted _ _ _ _ _ _ hb hl ih
  | unterminated l c rest hn => exact .unterminated _ _ _ hn

theorem atEndOr_append {P : UInt8 → Prop} {r b : Bytes} (h : AtEndOr P r)
    (hb : ∃ c t, b = c :: t ∧ P c) : AtEndOr P (r ++ b) := by
  rcases h with rfl | ⟨c, t, rfl, hc⟩
  · exact Or.inr (by simpa using hb)
  · exact Or.inr ⟨c, t ++ b, rfl, hc⟩

theorem lexes_append_break {l c : Nat} {a : Bytes} {ts : List Token} {err : Option (Nat × Nat)}
    (h : Lexes l c a ts err) (raw b : Bytes) (ts' : List Token) (err' : Option (Nat × Nat))
    (hraw : raw = [chLF] ∧ a.getLast? ≠ some chCR ∨ raw = [chCR, chLF] ∨
      raw = [chCR] ∧ b.head? ≠ some chLF)
    (hb : Lexes (l + eolCount ts + 1) 0 b ts' err') (herr : err = none) :
    ∃ col, Lexes l c (a ++ (raw ++ b)) (ts ++
      ((⟨raw, l + eolCount ts, col, col + raw.length, .eol⟩ : Token) :: ts')) err' := by
  induction h with
  | done l c =>
    refine ⟨c, .eol _ _ _ _ _ _ ?_ (by simpa [eolCount] using hb)⟩
    rcases hraw with ⟨h, _⟩ | h | h
    · exact Or.inl h
    · exact Or.inr (Or.inl h)
    · exact Or.inr (Or.inr h)
  | blank l c x rest ts err hx h ih =>
    obtain ⟨col, h2⟩ := ih (by
      rcases hraw with ⟨h, h'⟩ | h | h
      · refine Or.inl ⟨h, fun h2 => h' ?_⟩
        rw [show x :: rest = [x] ++ rest from rfl, getLast?_append_ne]
        · exact h2
        · rintro rfl; simp at h2
      · exact Or.inr (Or.inl h)
      · exact Or.inr (Or.inr h)) hb herr
    exact ⟨col, .blank _ _ _ _ _ _ hx h2⟩
  | eol l c raw' rest ts err hraw' h ih =>
    have hc : ∀ t, eolCount (({ v := raw', l := l, b := c, e := c + raw'.length, t := .eol } : Token) :: t) = eolCount t + 1 := by
      intro t; simp [eolCount]
    obtain ⟨col, h2⟩ := ih (by
      rcases hraw with ⟨h, h'⟩ | h | h
      · refine Or.inl ⟨h, fun h2 => h' ?_⟩
        rw [getLast?_append_ne]
        · exact h2
        · rintro rfl; simp at h2
      · exact Or.inr (Or.inl h)
      · exact Or.inr (Or.inr h)) (by rw [hc] at hb; rw [show l + 1 + eolCount ts + 1 = l + (eolCount ts + 1) + 1 by omega]; exact hb) herr
    refine ⟨col, ?_⟩
    rw [List.append_assoc, List.cons_append]
    have e1 : l + eolCount ((⟨raw', l, c, c + raw'.length, .eol⟩ : Token) :: ts) = l + 1 + eolCount ts := by
      rw [hc]; omega
    rw [e1]
    refine .eol _ _ _ _ _ _ ?_ h2
    rcases hraw' with h4 | h4 | ⟨h4, h3⟩
    · exact Or.inl h4
    · exact Or.inr (Or.inl h4)
    · refine Or.inr (Or.inr ⟨h4, ?_⟩)
      cases rest with
      | nil =>
        rcases hraw with ⟨_, h'⟩ | h5 | ⟨h5, _⟩
        · rw [h4] at h'; simp at h'
        · rw [h5]; simp [chCR, chLF]
        · rw [h5]; simp [chCR, chLF]
      | cons x rest => simpa using h3
  | comment l c v rest ts err hv hrest h ih =>
    have hraw2 := hraw
    obtain ⟨col, h2⟩ := ih (by
      rcases hraw with ⟨h, h'⟩ | h | h
      · refine Or.inl ⟨h, fun h2 => h' ?_⟩
        rw [show chSlash :: chSlash :: (v ++ rest) = (chSlash :: chSlash :: v) ++ rest from rfl, getLast?_append_ne]
        · exact h2
        · rintro rfl; simp at h2
      · exact Or.inr (Or.inl h)
      · exact Or.inr (Or.inr h)) (by simpa [eolCount] using hb) herr
    refine ⟨col, ?_⟩
    have := Lexes.comment l c v (rest ++ (raw ++ b)) _ err' hv (atEndOr_append hrest ?_) h2
    · simpa [eolCount] using this
    · rcases hraw2 with ⟨rfl, _⟩ | rfl | ⟨rfl, _⟩
      · exact ⟨_, _, rfl, Or.inr rfl⟩
      · exact ⟨_, _, rfl, Or.inl rfl⟩
      · exact ⟨_, _, rfl, Or.inl rfl⟩
  | bare l c v rest ts err hne hq hsl hv hrest h ih =>
    have hraw2 := hraw
    obtain ⟨col, h2⟩ := ih (by
      rcases hraw with ⟨h, h'⟩ | h | h
      · refine Or.inl ⟨h, fun h2 => h' ?_⟩
        rw [getLast?_append_ne]
        · exact h2
        · rintro rfl; simp at h2
      · exact Or.inr (Or.inl h)
      · exact Or.inr (Or.inr h)) (by simpa [eolCount] using hb) herr
    refine ⟨col, ?_⟩
    have := Lexes.bare l c v (rest ++ (raw ++ b)) _ err' hne hq hsl hv (atEndOr_append hrest ?_) h2
    · simpa [eolCount] using this
    · rcases hraw2 with ⟨rfl, _⟩ | rfl | ⟨rfl, _⟩
      · exact ⟨_, _, rfl, Or.inr (Or.inr rfl)⟩
      · exact ⟨_, _, rfl, Or.inr (Or.inl rfl)⟩
      · exact ⟨_, _, rfl, Or.inr (Or.inl rfl)⟩
  | quoted l c body rest ts err hb' hl h ih =>
    obtain ⟨col, h2⟩ := ih (by
      rcases hraw with ⟨h, h'⟩ | h | h
      · refine Or.inl ⟨h, fun h2 => h' ?_⟩
        rw [show chQuote :: (body ++ chQuote :: rest) = (chQuote :: (body ++ [chQuote])) ++ rest by simp, getLast?_append_ne]
        · exact h2
        · rintro rfl; simp at h2
      · exact Or.inr (Or.inl h)
      · exact Or.inr (Or.inr h)) (by simpa [eolCount] using hb) herr
    refine ⟨col, ?_⟩
    have := Lexes.quoted l c body (rest ++ (raw ++ b)) _ err' hb' hl h2
    simpa [eolCount] using this
  | unterminated l c rest hn => simp at herr

/-- Cutting a text at its unterminated string. -/
theorem lexes_cut {l c : Nat} {s : Bytes} {ts : List Token} {err : Option (Nat × Nat)}
    (h : Lexes l c s ts err) (pos : Nat × Nat) (herr : err = some pos) :
    ∃ pre t l' c', s = pre ++ chQuote :: t ∧ NoQuote chQuote t ∧ Lexes l c pre ts none ∧
      ∀ u ts' e, Lexes l' c' (chQuote :: u) ts' e → Lexes l c (pre ++ chQuote :: u) (ts ++ ts') e := by
  induction h with
  | done => simp at herr
  | blank l c x rest ts err hx h ih =>
    obtain ⟨pre, t, l', c', rfl, hn, h1, h2⟩ := ih herr
    exact ⟨x :: pre, t, l', c', rfl, hn, .blank _ _ _ _ _ _ hx h1,
      fun u ts' e h => .blank _ _ _ _ _ _ hx (h2 u ts' e h)⟩
  | eol l c raw rest ts err hraw h ih =>
    obtain ⟨pre, t, l', c', rfl, hn, h1, h2⟩ := ih herr
    refine ⟨raw ++ pre, t, l', c', by simp, hn, .eol _ _ _ _ _ _ ?_ h1, ?_⟩
    · rcases hraw with h | h | ⟨h, h3⟩
      · exact Or.inl h
      · exact Or.inr (Or.inl h)
      · refine Or.inr (Or.inr ⟨h, ?_⟩)
        cases pre with
        | nil => simp
        | cons x pre => simpa using h3
    · intro u ts' e h
      rw [List.append_assoc, List.cons_append]
      refine .eol _ _ _ _ _ _ ?_ (h2 u ts' e h)
      rcases hraw with h | h | ⟨h, h3⟩
      · exact Or.inl h
      · exact Or.inr (Or.inl h)
      · refine Or.inr (Or.inr ⟨h, ?_⟩)
        cases pre with
        | nil => simp [chQuote, chLF]
        | cons x pre => simpa using h3
  | comment l c v rest ts err hv hrest h ih =>
    obtain ⟨pre, t, l', c', rfl, hn, h1, h2⟩ := ih herr
    cases pre with
    | nil =>
      exfalso
      rcases hrest with h | ⟨x, y, h, hb⟩
      · simp at h
      · simp only [List.nil_append, List.cons.injEq] at h
        rw [← h.1] at hb; exact absurd hb (by decide)
    | cons x pre =>
      have hx : Break x := by
        rcases hrest with h | ⟨x', y, h, hb⟩
        · simp at h
        · simp only [List.cons_append, List.cons.injEq] at h
          rw [h.1]; exact hb
      refine ⟨chSlash :: chSlash :: (v ++ x :: pre), t, l', c', by simp, hn,
        .comment _ _ _ _ _ _ hv (Or.inr ⟨x, pre, rfl, hx⟩) h1, ?_⟩
      intro u ts' e h
      have := Lexes.comment l c v _ _ e hv (Or.inr ⟨x, _, rfl, hx⟩) (h2 u ts' e h)
      simpa using this
  | bare l c v rest ts err hne hq hsl hv hrest h ih =>
    obtain ⟨pre, t, l', c', rfl, hn, h1, h2⟩ := ih herr
    cases pre with
    | nil =>
      exfalso
      rcases hrest with h | ⟨x, y, h, hb⟩
      · simp at h
      · simp only [List.nil_append, List.cons.injEq] at h
        rw [← h.1] at hb; exact absurd hb (by decide)
    | cons x pre =>
      have hx : Stop x := by
        rcases hrest with h | ⟨x', y, h, hb⟩
        · simp at h
        · simp only [List.cons_append, List.cons.injEq] at h
          rw [h.1]; exact hb
      refine ⟨v ++ x :: pre, t, l', c', by simp, hn,
        .bare _ _ _ _ _ _ hne hq hsl hv (Or.inr ⟨x, pre, rfl, hx⟩) h1, ?_⟩
      intro u ts' e h
      have := Lexes.bare l c v _ _ e hne hq hsl hv (Or.inr ⟨x, _, rfl, hx⟩) (h2 u ts' e h)
      simpa using this
  | quoted l c body rest ts err hb hl h ih =>
    obtain ⟨pre, t, l', c', rfl, hn, h1, h2⟩ := ih herr
    refine ⟨chQuote :: (body ++ chQuote :: pre), t, l', c', by simp, hn,
      .quoted _ _ _ _ _ _ hb hl h1, ?_⟩
    intro u ts' e h
    have := Lexes.quoted l c body _ _ e hb hl (h2 u ts' e h)
    simpa using this
  | unterminated l c rest hn =>
    exact ⟨[], rest, l, c, rfl, hn, .done _ _, fun u ts' e h => h⟩

theorem append_split {a b c d : Bytes} (h : a ++ b = c ++ d) (hl : a.length = c.length) :
    a = c ∧ b = d := List.append_inj h hl

/-- If `""` after `pre` is a token of its own then any string may be opened there. -/
theorem lexes_opens {l c : Nat} {pre : Bytes} {ts : List Token} {err : Option (Nat × Nat)}
    (h : Lexes l c pre ts err) (herr : err = none) (tok : Token)
    (h2 : Lexes l c (pre ++ [chQuote, chQuote]) (ts ++ [tok]) none) :
    ∃ l' c', ∀ u ts' e, Lexes l' c' (chQuote :: u) ts' e →
      Lexes l c (pre ++ chQuote :: u) (ts ++ ts') e := by
  induction h with
  | done l c => exact ⟨l, c, fun u ts' e h => h⟩
  | blank l c x rest ts err hx h ih =>
    have := lexes_inv h2
    simp only [List.cons_append, lexKind, if_pos hx] at this
    obtain ⟨y, r, e, _, h3⟩ := this
    simp only [List.cons.injEq] at e
    rw [← e.2] at h3
    obtain ⟨l', c', h4⟩ := ih herr h3
    exact ⟨l', c', fun u ts' e h => .blank _ _ _ _ _ _ hx (h4 u ts' e h)⟩
  | eol l c raw rest ts err hraw h ih =>
    have := lexes_inv h2
    rw [List.append_assoc] at this
    have hraw3 : ∀ u, (raw = [chLF] ∨ raw = [chCR, chLF] ∨
        raw = [chCR] ∧ (rest ++ chQuote :: u).head? ≠ some chLF) := by
      intro u
      rcases hraw with h | h | ⟨h, h3⟩
      · exact Or.inl h
      · exact Or.inr (Or.inl h)
      · refine Or.inr (Or.inr ⟨h, ?_⟩)
        cases rest with
        | nil => simp [chQuote, chLF]
        | cons x pre => simpa using h3
    rw [lexKind_eol _ _ (hraw3 _)] at this
    obtain ⟨raw', rest', ts'', e, hraw', e2, h3⟩ := this
    simp only [List.cons_append, List.cons.injEq, Token.mk.injEq] at e2
    obtain ⟨⟨rfl, _⟩, rfl⟩ := e2
    obtain ⟨_, rfl⟩ := append_split e rfl
    obtain ⟨l', c', h4⟩ := ih herr h3
    refine ⟨l', c', fun u ts' e h => ?_⟩
    rw [List.append_assoc, List.cons_append]
    exact .eol _ _ _ _ _ _ (hraw3 u) (h4 u ts' e h)
  | comment l c v rest ts err hv hrest h ih =>
    have := lexes_inv h2
    have hk : lexKind (chSlash :: chSlash :: (v ++ rest) ++ [chQuote, chQuote]) = .comment := rfl
    rw [hk] at this
    obtain ⟨v', rest', ts'', e, hv', hr', e2, h3⟩ := this
    simp only [List.cons_append, List.cons.injEq, Token.mk.injEq] at e2
    obtain ⟨⟨rfl, _⟩, rfl⟩ := e2
    simp only [List.cons_append, List.cons.injEq, true_and, List.append_assoc] at e
    obtain ⟨_, rfl⟩ := append_split e rfl
    obtain ⟨l', c', h4⟩ := ih herr h3
    refine ⟨l', c', fun u ts' e h => ?_⟩
    have := Lexes.comment l c v (rest ++ chQuote :: u) _ e hv ?_ (h4 u ts' e h)
    · simpa using this
    · cases rest with
      | nil =>
        rcases hr' with h | ⟨x', y, h, hb⟩
        · simp at h
        · simp only [List.nil_append, List.cons.injEq] at h
          rw [← h.1] at hb; exact absurd hb (by decide)
      | cons x rest =>
        rcases hrest with h | ⟨x', y, h, hb⟩
        · simp at h
        · simp only [List.cons.injEq] at h
          exact Or.inr ⟨x, _, rfl, h.1 ▸ hb⟩
  | bare l c v rest ts err hne hq hsl hv hrest h ih =>
    have := lexes_inv h2
    have hkk : lexKind (v ++ rest ++ [chQuote, chQuote]) = .bare := by
      cases v with
      | nil => exact absurd rfl hne
      | cons a v =>
        have ha := hv a (by simp)
        have h1 : ¬ Blank a := fun h => ha (Or.inl h)
        have h2 : ¬ Break a := fun h => ha (Or.inr h)
        have h3 : a ≠ chQuote := by simpa using hq
        simp only [lexKind, List.cons_append, if_neg h1, if_neg h2, if_neg h3]
        rw [if_neg]
        rintro ⟨rfl, h'⟩
        cases v with
        | nil =>
          rcases hrest with rfl | ⟨c, t, rfl, hc⟩
          · exact absurd h' (by decide)
          · simp only [List.nil_append, List.cons_append, List.head?_cons, Option.some.injEq] at h'
            subst h'; exact absurd hc (by decide)
        | cons b v =>
          simp only [List.cons_append, List.head?_cons, Option.some.injEq] at h'
          subst h'; simp at hsl
    rw [hkk] at this
    obtain ⟨v', rest', ts'', e, _, _, _, hv', hr', e2, h3⟩ := this
    simp only [List.cons_append, List.cons.injEq, Token.mk.injEq] at e2
    obtain ⟨⟨rfl, _⟩, rfl⟩ := e2
    rw [List.append_assoc] at e
    obtain ⟨_, rfl⟩ := append_split e rfl
    obtain ⟨l', c', h4⟩ := ih herr h3
    refine ⟨l', c', fun u ts' e h => ?_⟩
    have := Lexes.bare l c v (rest ++ chQuote :: u) _ e hne hq hsl hv ?_ (h4 u ts' e h)
    · simpa using this
    · cases rest with
      | nil =>
        rcases hr' with h | ⟨x', y, h, hb⟩
        · simp at h
        · simp only [List.nil_append, List.cons.injEq] at h
          rw [← h.1] at hb; exact absurd hb (by decide)
      | cons x rest =>
        rcases hrest with h | ⟨x', y, h, hb⟩
        · simp at h
        · simp only [List.cons.injEq] at h
          exact Or.inr ⟨x, _, rfl, h.1 ▸ hb⟩
  | quoted l c body rest ts err hb hl h ih =>
    have := lexes_inv h2
    have hk : lexKind (chQuote :: (body ++ chQuote :: rest) ++ [chQuote, chQuote]) = .quote := rfl
    rw [hk] at this
    rcases this with ⟨body', rest', ts'', e, hb', hl', e2, h3⟩ | ⟨r, e, hn, e2, _⟩
    · simp only [List.cons_append, List.cons.injEq, true_and, List.append_assoc] at e
      obtain ⟨rfl, rfl⟩ := quote_unique _ _ _ _ _ e hb hb' hl hl'
      simp only [List.cons_append, List.cons.injEq, true_and] at e2
      subst e2
      obtain ⟨l', c', h4⟩ := ih herr h3
      refine ⟨l', c', fun u ts' e h => ?_⟩
      have := Lexes.quoted l c body _ _ e hb hl (h4 u ts' e h)
      simpa using this
    · simp at e2
  | unterminated l c rest hn => simp at herr

/-- Without adjacent backslashes the lexer's notion of an escaped quote is TEAL's. -/
theorem literalBody_of_noQuote (body : Bytes) : ∀ prev : UInt8, prev ≠ chBackslash →
    NoQuote prev body → lastFrom prev body ≠ chBackslash → NoDoubleBackslash body →
    LiteralBody body := by
  induction hn : body.length using Nat.strongRecOn generalizing body with
  | _ n ih =>
  intro prev hp hq hl hd
  cases body with
  | nil => exact .nil
  | cons c t =>
    cases hq with
    | cons _ _ _ hc ht =>
    have hcq : c ≠ chQuote := fun h => hp (hc h)
    rw [lastFrom_cons] at hl
    by_cases hcb : c = chBackslash
    · subst hcb
      cases t with
      | nil => simp [lastFrom] at hl
      | cons d t =>
        cases ht with
        | cons _ _ _ _ ht =>
        rw [lastFrom_cons] at hl
        obtain ⟨hd1, hd2⟩ := hd
        have hdb : d ≠ chBackslash := fun h => hd1 ⟨rfl, h⟩
        refine .esc _ _ (ih t.length (by simp at hn; omega) t rfl d hdb ht hl ?_)
        cases t with
        | nil => trivial
        | cons e t => exact hd2.2
    · refine .plain _ _ hcq hcb (ih t.length (by simp at hn; omega) t rfl c hcb ht hl ?_)
      cases t with
      | nil => trivial
      | cons e t => exact hd.2

theorem noQuote_no_literal (body : Bytes) (h : LiteralBody body) : ∀ (prev : UInt8) (r : Bytes),
    prev ≠ chBackslash → NoQuote prev (body ++ chQuote :: r) →
    NoDoubleBackslash (body ++ chQuote :: r) → False := by
  induction h with
  | nil =>
    intro prev r hp hn _
    cases hn with
    | cons _ _ _ h _ => exact hp (h rfl)
  | plain c t hq hb h ih =>
    intro prev r hp hn hd
    cases hn with
    | cons _ _ _ _ hn =>
    refine ih c r hb hn ?_
    cases t with
    | nil => exact hd.2
    | cons e t => exact hd.2
  | esc c t h ih =>
    intro prev r hp hn hd
    cases hn with
    | cons _ _ _ _ hn =>
    cases hn with
    | cons _ _ _ _ hn =>
    obtain ⟨hd1, hd2⟩ := hd
    refine ih c r (fun h => hd1 ⟨rfl, h⟩) hn ?_
    cases t with
    | nil => exact hd2.2
    | cons e t => exact hd2.2

end Teal
