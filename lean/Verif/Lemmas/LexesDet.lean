import Verif.Lemmas.LexerMain

/-! The lexical grammar is deterministic. -/

namespace Teal

open Spec

/-- Which rule of the grammar applies. -/
inductive LexKind | done | blank | eol | comment | quote | bare
deriving DecidableEq

def lexKind : Bytes → LexKind
  | [] => .done
  | c :: t =>
    if Blank c then .blank
    else if Break c then .eol
    else if c = chQuote then .quote
    else if c = chSlash ∧ t.head? = some chSlash then .comment
    else .bare

theorem lexKind_eol (raw rest : Bytes)
    (h : raw = [chLF] ∨ raw = [chCR, chLF] ∨ (raw = [chCR] ∧ rest.head? ≠ some chLF)) :
    lexKind (raw ++ rest) = .eol := by
  rcases h with rfl | rfl | ⟨rfl, _⟩ <;> rfl

theorem lexKind_bare (v rest : Bytes) (hne : v ≠ []) (hq : v.head? ≠ some chQuote)
    (hsl : v.take 2 ≠ [chSlash, chSlash]) (hv : ∀ x ∈ v, ¬ Stop x) (hrest : AtEndOr Stop rest) :
    lexKind (v ++ rest) = .bare := by
  cases v with
  | nil => exact absurd rfl hne
  | cons a v =>
    have ha := hv a (by simp)
    have h1 : ¬ Blank a := fun h => ha (Or.inl h)
    have h2 : ¬ Break a := fun h => ha (Or.inr h)
    have h3 : a ≠ chQuote := by simpa using hq
    simp only [lexKind, List.cons_append, if_neg h1, if_neg h2, if_neg h3]
    rw [if_neg]
    rintro ⟨rfl, h⟩
    cases v with
    | nil =>
      rcases hrest with rfl | ⟨c, t, rfl, hc⟩
      · simp at h
      · simp only [List.nil_append, List.head?_cons, Option.some.injEq] at h
        subst h; exact absurd hc (by decide)
    | cons b v =>
      simp only [List.cons_append, List.head?_cons, Option.some.injEq] at h
      subst h; simp at hsl

/-- Inversion of the grammar, driven by the first bytes. -/
theorem lexes_inv {l c : Nat} {s : Bytes} {ts : List Token} {err : Option (Nat × Nat)}
    (h : Lexes l c s ts err) :
    match lexKind s with
    | .done => s = [] ∧ ts = [] ∧ err = none
    | .blank => ∃ x rest, s = x :: rest ∧ Blank x ∧ Lexes l (c + 1) rest ts err
    | .eol => ∃ raw rest ts', s = raw ++ rest ∧
        (raw = [chLF] ∨ raw = [chCR, chLF] ∨ (raw = [chCR] ∧ rest.head? ≠ some chLF)) ∧
        ts = { v := raw, l := l, b := c, e := c + raw.length, t := .eol } :: ts' ∧
        Lexes (l + 1) 0 rest ts' err
    | .comment => ∃ v rest ts', s = chSlash :: chSlash :: (v ++ rest) ∧ (∀ x ∈ v, ¬ Break x) ∧
        AtEndOr Break rest ∧
        ts = { v := v, l := l, b := c, e := c + (v.length + 2), t := .comment } :: ts' ∧
        Lexes l (c + (v.length + 2)) rest ts' err
    | .bare => ∃ v rest ts', s = v ++ rest ∧ v ≠ [] ∧ v.head? ≠ some chQuote ∧
        v.take 2 ≠ [chSlash, chSlash] ∧ (∀ x ∈ v, ¬ Stop x) ∧ AtEndOr Stop rest ∧
        ts = { v := v, l := l, b := c, e := c + v.length, t := .value } :: ts' ∧
        Lexes l (c + v.length) rest ts' err
    | .quote => (∃ body rest ts', s = chQuote :: (body ++ chQuote :: rest) ∧
        NoQuote chQuote body ∧ lastByte body ≠ chBackslash ∧
        ts = { v := chQuote :: (unescapeQuotes body ++ [chQuote]), l := l, b := c,
               e := c + (body.length + 2), t := .value } :: ts' ∧
        Lexes l (c + (body.length + 2)) rest ts' err) ∨
        (∃ rest, s = chQuote :: rest ∧ NoQuote chQuote rest ∧ ts = [] ∧
          err = some (l, c + (rest.length + 1))) := by
  cases h with
  | done => exact ⟨rfl, rfl, rfl⟩
  | blank _ _ x rest _ _ hx h =>
    simp only [lexKind, if_pos hx]
    exact ⟨_, _, rfl, hx, h⟩
  | eol _ _ raw rest ts _ hraw h =>
    rw [lexKind_eol _ _ hraw]
    exact ⟨_, _, _, rfl, hraw, rfl, h⟩
  | comment _ _ v rest ts _ hv hrest h =>
    exact ⟨_, _, _, rfl, hv, hrest, rfl, h⟩
  | bare _ _ v rest ts _ hne hq hsl hv hrest h =>
    rw [lexKind_bare _ _ hne hq hsl hv hrest]
    exact ⟨_, _, _, rfl, hne, hq, hsl, hv, hrest, rfl, h⟩
  | quoted _ _ body rest ts _ hb hl h => exact Or.inl ⟨_, _, _, rfl, hb, hl, rfl, h⟩
  | unterminated _ _ rest h => exact Or.inr ⟨_, rfl, h, rfl, rfl⟩

theorem span_unique (P : UInt8 → Prop) (v : Bytes) : ∀ (v' r r' : Bytes), v ++ r = v' ++ r' →
    (∀ x ∈ v, ¬ P x) → (∀ x ∈ v', ¬ P x) → AtEndOr P r → AtEndOr P r' → v = v' ∧ r = r' := by
  induction v with
  | nil =>
    intro v' r r' h _ hv' hr _
    cases v' with
    | nil => exact ⟨rfl, by simpa using h⟩
    | cons a v' =>
      exfalso
      simp only [List.nil_append, List.cons_append] at h
      rcases hr with rfl | ⟨c, t, rfl, hc⟩
      · simp at h
      · simp only [List.cons.injEq] at h
        exact hv' a (by simp) (h.1 ▸ hc)
  | cons a v ih =>
    intro v' r r' h hv hv' hr hr'
    cases v' with
    | nil =>
      exfalso
      simp only [List.nil_append, List.cons_append] at h
      rcases hr' with rfl | ⟨c, t, rfl, hc⟩
      · simp at h
      · simp only [List.cons.injEq] at h
        exact hv a (by simp) (h.1 ▸ hc)
    | cons b v' =>
      simp only [List.cons_append, List.cons.injEq] at h
      obtain ⟨e1, e2⟩ := ih v' r r' h.2 (fun x hx => hv x (by simp [hx]))
        (fun x hx => hv' x (by simp [hx])) hr hr'
      exact ⟨by rw [h.1, e1], e2⟩

theorem noQuote_last (body : Bytes) : ∀ (prev : UInt8) (rest : Bytes),
    NoQuote prev (body ++ chQuote :: rest) → lastFrom prev body = chBackslash := by
  induction body with
  | nil =>
    intro prev rest h
    cases h with
    | cons _ _ _ h _ => simpa [lastFrom] using h rfl
  | cons a body ih =>
    intro prev rest h
    cases h with
    | cons _ _ _ _ ht => rw [lastFrom_cons]; exact ih _ _ ht

theorem quote_unique (body : Bytes) : ∀ (prev : UInt8) (body' r r' : Bytes),
    body ++ chQuote :: r = body' ++ chQuote :: r' → NoQuote prev body → NoQuote prev body' →
    lastFrom prev body ≠ chBackslash → lastFrom prev body' ≠ chBackslash →
    body = body' ∧ r = r' := by
  induction body with
  | nil =>
    intro prev body' r r' h _ hb' hl _
    cases body' with
    | nil => exact ⟨rfl, by simpa using h⟩
    | cons a body' =>
      exfalso
      simp only [List.nil_append, List.cons_append, List.cons.injEq] at h
      cases hb' with
      | cons _ _ _ h' _ => exact hl (by simpa [lastFrom] using h' h.1.symm)
  | cons a body ih =>
    intro prev body' r r' h hb hb' hl hl'
    cases body' with
    | nil =>
      exfalso
      simp only [List.nil_append, List.cons_append, List.cons.injEq] at h
      cases hb with
      | cons _ _ _ h' _ => exact hl' (by simpa [lastFrom] using h' h.1)
    | cons b body' =>
      simp only [List.cons_append, List.cons.injEq] at h
      obtain ⟨rfl, h⟩ := h
      cases hb with
      | cons _ _ _ _ hb =>
      cases hb' with
      | cons _ _ _ _ hb' =>
      rw [lastFrom_cons] at hl hl'
      obtain ⟨e1, e2⟩ := ih a body' r r' h hb hb' hl hl'
      exact ⟨by rw [e1], e2⟩

theorem lexes_det {l c : Nat} {s : Bytes} {ts : List Token} {err : Option (Nat × Nat)}
    (h : Lexes l c s ts err) : ∀ {ts' err'}, Lexes l c s ts' err' → ts = ts' ∧ err = err' := by
  induction h with
  | done =>
    intro ts' err' h'
    have := lexes_inv h'
    simp only [lexKind] at this
    exact ⟨this.2.1.symm, this.2.2.symm⟩
  | blank l c x rest ts err hx h ih =>
    intro ts' err' h'
    have := lexes_inv h'
    simp only [lexKind, if_pos hx] at this
    obtain ⟨y, r, e, _, h2⟩ := this
    simp only [List.cons.injEq] at e
    rw [← e.2] at h2
    exact ih h2
  | eol l c raw rest ts err hraw h ih =>
    intro ts' err' h'
    have := lexes_inv h'
    rw [lexKind_eol _ _ hraw] at this
    obtain ⟨raw', rest', ts'', e, hraw', e2, h2⟩ := this
    have : raw = raw' ∧ rest = rest' := by
      rcases hraw with rfl | rfl | ⟨rfl, hh⟩ <;> rcases hraw' with rfl | rfl | ⟨rfl, hh'⟩ <;>
        simp only [List.cons_append, List.nil_append, List.cons.injEq, true_and, chCR, chLF,
          and_true] at e ⊢ <;>
        first
        | exact e
        | (exact absurd e.1 (by decide))
        | (subst e; simp at hh)
        | (subst e; simp at hh')
        | (rw [← e] at hh'; simp at hh')
        | (rw [e] at hh; simp at hh)
    obtain ⟨rfl, rfl⟩ := this
    obtain ⟨rfl, rfl⟩ := ih h2
    exact ⟨e2.symm, rfl⟩
  | comment l c v rest ts err hv hrest h ih =>
    intro ts' err' h'
    have := lexes_inv h'
    have hk : lexKind (chSlash :: chSlash :: (v ++ rest)) = .comment := rfl
    rw [hk] at this
    obtain ⟨v', rest', ts'', e, hv', hr', e2, h2⟩ := this
    simp only [List.cons.injEq, true_and] at e
    obtain ⟨rfl, rfl⟩ := span_unique _ _ _ _ _ e hv hv' hrest hr'
    obtain ⟨rfl, rfl⟩ := ih h2
    exact ⟨e2.symm, rfl⟩
  | bare l c v rest ts err hne hq hsl hv hrest h ih =>
    intro ts' err' h'
    have := lexes_inv h'
    rw [lexKind_bare _ _ hne hq hsl hv hrest] at this
    obtain ⟨v', rest', ts'', e, _, _, _, hv', hr', e2, h2⟩ := this
    obtain ⟨rfl, rfl⟩ := span_unique _ _ _ _ _ e hv hv' hrest hr'
    obtain ⟨rfl, rfl⟩ := ih h2
    exact ⟨e2.symm, rfl⟩
  | quoted l c body rest ts err hb hl h ih =>
    intro ts' err' h'
    have := lexes_inv h'
    have hk : lexKind (chQuote :: (body ++ chQuote :: rest)) = .quote := rfl
    rw [hk] at this
    rcases this with ⟨body', rest', ts'', e, hb', hl', e2, h2⟩ | ⟨r, e, hn, _, _⟩
    · simp only [List.cons.injEq, true_and] at e
      obtain ⟨rfl, rfl⟩ := quote_unique _ _ _ _ _ e hb hb' hl hl'
      obtain ⟨rfl, rfl⟩ := ih h2
      exact ⟨e2.symm, rfl⟩
    · simp only [List.cons.injEq, true_and] at e
      rw [← e] at hn
      exact absurd (noQuote_last _ _ _ hn) hl
  | unterminated l c rest hn =>
    intro ts' err' h'
    have := lexes_inv h'
    have hk : lexKind (chQuote :: rest) = .quote := rfl
    rw [hk] at this
    rcases this with ⟨body', rest', ts'', e, hb', hl', e2, h2⟩ | ⟨r, e, _, e1, e2⟩
    · simp only [List.cons.injEq, true_and] at e
      rw [e] at hn
      exact absurd (noQuote_last _ _ _ hn) hl'
    · simp only [List.cons.injEq, true_and] at e
      rw [← e] at e2
      exact ⟨e1.symm, e2.symm⟩

/-- The model's `readTokens` and the grammar agree. -/
theorem readTokens_lexes (src : Bytes) : ∃ err, Lexes 0 0 src (readTokens src).1 err ∧
    (readTokens src).2 = errDiag err := by
  obtain ⟨toks, err, h1, h2, h3⟩ := loop_lexes (src.length + 1) { source := src } []
    ⟨rfl, Nat.le_refl _, Nat.zero_le _, rfl⟩ (Or.inl rfl) (by simp [Lexer.rest])
  refine ⟨err, ?_, ?_⟩
  · unfold readTokens
    simp only []
    rw [h2]; exact h1
  · unfold readTokens
    simp only []
    rw [h3]; simp

theorem readTokens_of_lexes {src : Bytes} {ts : List Token} {err : Option (Nat × Nat)}
    (h : Lexes 0 0 src ts err) : readTokens src = (ts, errDiag err) := by
  obtain ⟨err', h1, h2⟩ := readTokens_lexes src
  obtain ⟨e1, e2⟩ := lexes_det h1 h
  rw [← e1, ← e2, ← h2]

end Teal
