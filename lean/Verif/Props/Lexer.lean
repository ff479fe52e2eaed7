import Verif.Lemmas.LexesCompose

/-!
# Properties C01–C06: the lexer

`readTokens src` is the pair of tokens and lexical errors of the source text `src`.
-/

namespace Teal.Props

open Teal Spec

/-- **C01** Scanning any byte string terminates (the model is total and its loop bound is never
the reason to stop, see `C01_grammar`), and the source is, byte for byte, the concatenation of
the spellings of the tokens and the blanks between them, followed by blanks, or, when an error is
reported, by blanks and a string that is never closed. -/
theorem C01_lossless (src : Bytes) :
    ∃ ps tail, Decomposes src (readTokens src).1 ps tail ∧
      (((readTokens src).2 = [] ∧ ∀ x ∈ tail, Blank x) ∨
       ((readTokens src).2 ≠ [] ∧ ∃ bl s, tail = bl ++ chQuote :: s ∧ (∀ x ∈ bl, Blank x) ∧
          NoQuote chQuote s)) := by
  obtain ⟨err, h1, h2⟩ := readTokens_lexes src
  obtain ⟨ps, tail, hd, ht, _, _⟩ := lexes_pieces h1 [] (by simp)
  refine ⟨ps, tail, hd, ?_⟩
  rw [h2]
  rcases ht with ⟨rfl, h⟩ | ⟨pos, bl, s, rfl, h⟩
  · exact Or.inl ⟨rfl, h⟩
  · exact Or.inr ⟨by simp [errDiag], bl, s, h⟩

/-- **C01** The tokens and errors are exactly those the declarative grammar `Lexes` assigns to the
text, and the grammar assigns exactly one such pair to every text. -/
theorem C01_grammar (src : Bytes) (ts : List Token) (errs : List LexError) :
    readTokens src = (ts, errs) ↔
      ∃ err, Lexes 0 0 src ts err ∧
        errs = (match err with
          | none => []
          | some (l, li) => [{ l := l, li := li, msg := .incompleteString }]) := by
  constructor
  · intro h
    obtain ⟨err, h1, h2⟩ := readTokens_lexes src
    rw [h] at h1 h2
    refine ⟨err, h1, h2.trans ?_⟩
    cases err <;> rfl
  · rintro ⟨err, h1, rfl⟩
    rw [readTokens_of_lexes h1]
    cases err <;> rfl

example : (readTokens b!"int 1 // one\nb x").1.map Token.v =
    [b!"int", b!"1", b!" one", b!"\n", b!"b", b!"x"] := by decide +kernel

/-- **C02** (partial: only for tokens not preceded by a string literal containing a line break;
see `C02_false`.) The line of a token is the number of line breaks before it, its begin column
the number of bytes since the last break, and its width the length of its spelling. -/
theorem C02_positions_partial (src : Bytes) :
    ∃ ps tail, Decomposes src (readTokens src).1 ps tail ∧
      ∀ ps1 p ps2, ps = ps1 ++ p :: ps2 →
        p.tok.e = p.tok.b + p.raw.length ∧
        (OneLineStrings ps1 →
          p.tok.l = breaks (textOf ps1 ++ p.blank) ∧
          p.tok.b = column (textOf ps1 ++ p.blank)) := by
  obtain ⟨err, h1, h2⟩ := readTokens_lexes src
  obtain ⟨ps, tail, hd, _, hp, _⟩ := lexes_pieces h1 [] (by simp)
  refine ⟨ps, tail, hd, ?_⟩
  intro ps1 p ps2 h
  obtain ⟨a, b⟩ := hp ps1 p ps2 h
  exact ⟨a, fun ho => by simpa using b ⟨rfl, rfl⟩ ho⟩

/-- **C02 is false of the code**: after a string literal with a line break inside, the tokens are
reported on a line that is too small: `1` is on line 2 of this text, the lexer says 1. -/
theorem C02_false : ∃ src tok, tok ∈ (readTokens src).1 ∧ tok.v = b!"1" ∧
    src = b!"byte \"a\nb\"\nint 1" ∧ breaks b!"byte \"a\nb\"\nint " = 2 ∧ tok.l = 1 :=
  ⟨_, { v := b!"1", l := 1, b := 4, e := 5, t := .value }, by decide +kernel, rfl, rfl,
    by decide +kernel, rfl⟩

/-- **C03** Shape of the tokens. -/
theorem C03_shapes (src : Bytes) (tok : Token) (h : tok ∈ (readTokens src).1) :
    (tok.t = .value →
      (tok.v ≠ [] ∧ tok.v.head? ≠ some chQuote ∧ ∀ x ∈ tok.v, ¬ Stop x) ∨
      (∃ body, tok.v = chQuote :: (body ++ [chQuote]))) ∧
    (tok.t = .comment → ∀ x ∈ tok.v, ¬ Break x) ∧
    (tok.t = .eol → tok.v = [chLF] ∨ tok.v = [chCR, chLF] ∨ tok.v = [chCR]) := by
  obtain ⟨ps, tail, hd, _⟩ := C01_lossless src
  rw [hd.toks_eq] at h
  obtain ⟨p, hp, rfl⟩ := List.mem_map.1 h
  rcases (hd.pieces p hp).2 with ⟨ht, hv, hr⟩ | ⟨ht, hr, hv⟩ | ⟨ht, hv, hne, hq, hs⟩ |
    ⟨ht, body, u, hr, hv, _⟩
  · simp only [ht, hv]; exact ⟨by simp, by simp, fun _ => hr⟩
  · simp only [ht]; exact ⟨by simp, fun _ => hv, by simp⟩
  · simp only [ht, hv]; exact ⟨fun _ => Or.inl ⟨hne, hq, hs⟩, by simp, by simp⟩
  · simp only [ht]; exact ⟨fun _ => Or.inr ⟨u, hv⟩, by simp, by simp⟩

/-- **C04** Lexing is compositional over lines: if `a` lexes without error then lexing `a`, a line
break, and `b` gives the tokens of `a`, an end-of-line token, and the tokens (and error) of `b`
moved down.  (The break must not merge with its neighbours: `\n` not after `\r`, `\r` not
before `\n`.) -/
theorem C04_compositional (a raw b : Bytes) (ha : (readTokens a).2 = [])
    (hraw : raw = [chLF] ∧ a.getLast? ≠ some chCR ∨ raw = [chCR, chLF] ∨
      raw = [chCR] ∧ b.head? ≠ some chLF) :
    ∃ n col, n = ((readTokens a).1.filter (fun t => decide (t.t = .eol))).length ∧
      (readTokens (a ++ raw ++ b)).1 =
        (readTokens a).1 ++ [{ v := raw, l := n, b := col, e := col + raw.length, t := .eol }] ++
          (readTokens b).1.map (moveDown (n + 1)) ∧
      (readTokens (a ++ raw ++ b)).2 =
        (readTokens b).2.map (fun e => { e with l := e.l + (n + 1) }) := by
  obtain ⟨err, h1, h2⟩ := readTokens_lexes a
  obtain ⟨err', h3, h4⟩ := readTokens_lexes b
  have herr : err = none := by
    cases err with
    | none => rfl
    | some p => rw [ha] at h2; simp [errDiag] at h2
  have hb := lexes_shift h3 (0 + eolCount (readTokens a).1 + 1)
  rw [Nat.zero_add (0 + eolCount (readTokens a).1 + 1)] at hb
  obtain ⟨col, h5⟩ := lexes_append_break h1 raw b _ _ hraw hb herr
  rw [← List.append_assoc] at h5
  rw [readTokens_of_lexes h5]
  refine ⟨eolCount (readTokens a).1, col, rfl, ?_, ?_⟩
  · simp
  · rw [h4]
    cases err' with
    | none => rfl
    | some p => simp [errDiag]

example : (readTokens b!"int 1").2 = [] ∧ (b!"int 1").getLast? ≠ some chCR := by decide +kernel

/-- **C05** At most one lexical error is reported and it is "incomplete string". -/
theorem C05_single_error (src : Bytes) :
    (readTokens src).2 = [] ∨
    ∃ l li, (readTokens src).2 = [{ l := l, li := li, msg := .incompleteString }] := by
  obtain ⟨err, _, h2⟩ := readTokens_lexes src
  cases err with
  | none => exact Or.inl h2
  | some p => exact Or.inr ⟨p.1, p.2, h2⟩

/-- **C05** An error is reported exactly when a string is opened at the start of a token and never
closed; every token before the opening quote is still reported. -/
theorem C05_error_iff (src : Bytes) :
    (readTokens src).2 ≠ [] ↔
      ∃ pre s, src = pre ++ chQuote :: s ∧ (readTokens pre).2 = [] ∧
        OpensLiteral readTokens pre ∧ NoQuote chQuote s := by
  constructor
  · intro h
    obtain ⟨err, h1, h2⟩ := readTokens_lexes src
    cases err with
    | none => exact absurd h2 h
    | some pos =>
      obtain ⟨pre, t, l', c', h3, h4, h5, h6⟩ := lexes_cut h1 pos rfl
      have hp := readTokens_of_lexes h5
      refine ⟨pre, t, h3, by rw [hp]; rfl, ?_, h4⟩
      have h7 := h6 [chQuote] _ _ (Lexes.quoted l' c' [] [] [] none (.nil _) (by decide) (.done _ _))
      refine ⟨⟨[chQuote, chQuote], l', c', c' + 2, .value⟩, ?_, rfl⟩
      rw [readTokens_of_lexes h7, hp]; rfl
  · rintro ⟨pre, s, rfl, h1, ⟨tok, h2, h3⟩, h4⟩
    obtain ⟨err, h5, h6⟩ := readTokens_lexes pre
    have herr : err = none := by
      cases err with
      | none => rfl
      | some p => rw [h1] at h6; simp [errDiag] at h6
    obtain ⟨err', h7, h8⟩ := readTokens_lexes (pre ++ [chQuote, chQuote])
    rw [h2] at h7 h8
    have herr' : err' = none := by
      cases err' with
      | none => rfl
      | some p => simp [errDiag] at h8
    rw [herr'] at h7
    obtain ⟨l', c', h9⟩ := lexes_opens h5 herr tok h7
    rw [readTokens_of_lexes (h9 s [] _ (.unterminated l' c' s h4))]
    simp [errDiag]

/-- **C05** Nothing is lost before the opening quote: the tokens of the text are the tokens of
the part before the unterminated string. -/
theorem C05_tokens_before (pre s : Bytes) (h1 : (readTokens pre).2 = [])
    (h2 : OpensLiteral readTokens pre) (h3 : NoQuote chQuote s) :
    (readTokens (pre ++ chQuote :: s)).1 = (readTokens pre).1 := by
  obtain ⟨tok, h2, _⟩ := h2
  obtain ⟨err, h5, h6⟩ := readTokens_lexes pre
  have herr : err = none := by
    cases err with
    | none => rfl
    | some p => rw [h1] at h6; simp [errDiag] at h6
  obtain ⟨err', h7, h8⟩ := readTokens_lexes (pre ++ [chQuote, chQuote])
  rw [h2] at h7 h8
  have herr' : err' = none := by
    cases err' with
    | none => rfl
    | some p => simp [errDiag] at h8
  rw [herr'] at h7
  obtain ⟨l', c', h9⟩ := lexes_opens h5 herr tok h7
  rw [readTokens_of_lexes (h9 s [] _ (.unterminated l' c' s h3))]
  simp

/-- The hypotheses of the C05 theorems are met by `byte "abc`. -/
example : (readTokens b!"byte ").2 = [] ∧ OpensLiteral readTokens b!"byte " ∧
    NoQuote chQuote b!"abc" :=
  ⟨by decide +kernel, ⟨{ v := [34, 34], l := 0, b := 5, e := 7, t := .value }, by decide +kernel, rfl⟩,
   .cons _ _ _ (by decide) (.cons _ _ _ (by decide) (.cons _ _ _ (by decide) (.nil _)))⟩

theorem unescaped_break {s u : Bytes} (h : Unescaped s u) (x : UInt8) (hx : x ∈ s) (hb : Break x) : x ∈ u := by
  induction h with
  | nil => exact hx
  | esc t u h ih =>
    simp only [List.mem_cons] at hx
    rcases hx with rfl | rfl | hx
    · exact absurd hb (by decide)
    · exact absurd hb (by decide)
    · exact List.mem_cons_of_mem _ (ih hx)
  | keep c t u hc h ih =>
    rcases List.mem_cons.1 hx with rfl | hx
    · simp
    · exact List.mem_cons_of_mem _ (ih hx)

/-- **C05** The error is positioned at the end of the text (when no string contains a line break). -/
theorem C05_position_partial (pre s : Bytes) (h1 : (readTokens pre).2 = [])
    (h2 : OpensLiteral readTokens pre) (h3 : NoQuote chQuote s)
    (hone : ∀ t ∈ (readTokens pre).1, t.t = .value → ∀ x ∈ t.v, ¬ Break x) (hs : ∀ x ∈ s, ¬ Break x) :
    (readTokens (pre ++ chQuote :: s)).2 =
      [{ l := breaks (pre ++ chQuote :: s), li := column (pre ++ chQuote :: s), msg := .incompleteString }] := by
  obtain ⟨tok, h2, hv⟩ := h2
  obtain ⟨err, h5, h6⟩ := readTokens_lexes pre
  have herr : err = none := by
    cases err with
    | none => rfl
    | some p => rw [h1] at h6; simp [errDiag] at h6
  obtain ⟨err', h7, h8⟩ := readTokens_lexes (pre ++ [chQuote, chQuote])
  rw [h2] at h7 h8
  have herr' : err' = none := by
    cases err' with
    | none => rfl
    | some p => simp [errDiag] at h8
  rw [herr'] at h7
  obtain ⟨l', c', h9⟩ := lexes_opens h5 herr tok h7
  -- the token that `""` would be begins where the string opens
  have h10 := readTokens_of_lexes (h9 [chQuote] _ _ (Lexes.quoted l' c' [] [] [] none (.nil _) (by decide) (.done _ _)))
  rw [h2] at h10
  have htok : tok.l = l' ∧ tok.b = c' ∧ tok.t = .value := by
    have := congrArg Prod.fst h10
    simp only [List.append_cancel_left_eq, List.cons.injEq, and_true] at this
    rw [this]; exact ⟨rfl, rfl, rfl⟩
  -- and it is the last piece of that text
  obtain ⟨ps, tail, hd, htl, hp, _⟩ := lexes_pieces h7 [] (by simp)
  have htail : tail = [] := by
    rcases htl with ⟨_, hb⟩ | ⟨_, _, _, h, _⟩
    · rcases List.eq_nil_or_concat tail with rfl | ⟨t, x, rfl⟩
      · rfl
      · rw [List.concat_eq_append] at hb hd
        have hx := hb x (by simp)
        have hsrc := hd.src_eq
        rw [← List.append_assoc] at hsrc
        have hlast := congrArg List.getLast? hsrc
        simp only [List.getLast?_append, List.getLast?_singleton, Option.some_or] at hlast
        simp at hlast
        rw [← hlast] at hx
        exact absurd hx (by decide)
    · cases h
  obtain ⟨ps1, p, rfl, hps1, hptok⟩ : ∃ ps1 p, ps = ps1 ++ [p] ∧ ps1.map Piece.tok = (readTokens pre).1 ∧ p.tok = tok := by
    have hm := hd.toks_eq
    rcases List.eq_nil_or_concat ps with rfl | ⟨qs, q, rfl⟩
    · simp at hm
    · rw [List.concat_eq_append] at hm ⊢
      rw [List.map_append, List.map_singleton] at hm
      have := List.append_inj' hm (by simp)
      exact ⟨qs, q, rfl, this.1.symm, by simpa using this.2.symm⟩
  have hraw : p.raw = [chQuote, chQuote] := by
    rcases (hd.pieces p (by simp)).2 with ⟨ht, _, _⟩ | ⟨ht, _, _⟩ | ⟨_, hvr, _, hq, _⟩ | ⟨_, body, u, hr, hv', hu, _, _⟩
    · rw [hptok, htok.2.2] at ht; cases ht
    · rw [hptok, htok.2.2] at ht; cases ht
    · rw [← hvr, hptok, hv] at hq; exact absurd rfl hq
    · rw [hptok, hv] at hv'
      have hu0 : u = [] := by
        cases u with
        | nil => rfl
        | cons a u => simp at hv'
      subst hu0
      cases hu
      exact hr
  have hpre : textOf ps1 ++ p.blank = pre := by
    have hsrc := hd.src_eq
    rw [htail, List.append_nil] at hsrc
    simp only [textOf, List.flatMap_append, List.flatMap_cons, List.flatMap_nil, List.append_nil, hraw] at hsrc
    rw [← List.append_assoc] at hsrc
    exact (List.append_cancel_right hsrc).symm
  have hpos := (hp ps1 p [] rfl).2 ⟨rfl, rfl⟩ (by
    intro q hq ht x hx hbr
    have hqt : q.tok ∈ (readTokens pre).1 := by rw [← hps1]; exact List.mem_map_of_mem hq
    have hno := hone q.tok hqt ht
    rcases (hd.pieces q (by simp [hq])).2 with ⟨ht', _, _⟩ | ⟨ht', _, _⟩ | ⟨_, hvr, _, _, _⟩ | ⟨_, body, u, hr, hv', hu, _, _⟩
    · rw [ht] at ht'; cases ht'
    · rw [ht] at ht'; cases ht'
    · rw [hvr] at hno; exact hno x hx hbr
    · rw [hr] at hx
      rw [hv'] at hno
      simp only [List.mem_cons, List.mem_append, List.not_mem_nil, or_false] at hx
      rcases hx with rfl | hx | rfl
      · exact absurd hbr (by decide)
      · exact hno x (by simp [unescaped_break hu x hx hbr]) hbr
      · exact absurd hbr (by decide))
  simp only [List.nil_append, hpre, hptok, htok.1, htok.2.1] at hpos
  rw [readTokens_of_lexes (h9 s [] _ (.unterminated l' c' s h3))]
  have hno : ∀ x ∈ chQuote :: s, ¬ Break x := by
    intro x hx
    rcases List.mem_cons.1 hx with rfl | hx
    · decide
    · exact hs x hx
  rw [breaks_snoc_nobreak _ _ hno, column_append _ _ hno, hpos.1, hpos.2]
  rfl

/-- The hypotheses of `C05_position_partial` are met. -/
example : (readTokens b!"int 1\nbyte \"abc").2 = [{ l := 1, li := 9, msg := .incompleteString }] ∧
    OpensLiteral readTokens b!"int 1\nbyte " ∧
    ∀ t ∈ (readTokens b!"int 1\nbyte ").1, t.t = .value → ∀ x ∈ t.v, ¬ Break x :=
  ⟨by decide +kernel, ⟨{ v := [34, 34], l := 1, b := 5, e := 7, t := .value }, by decide +kernel, rfl⟩, by decide +kernel⟩

/-- The position is wrong in general: when a string holds a line break the lexer goes on counting
on the line where the string began. -/
theorem C05_false : (readTokens b!"byte \"a\nb").2 = [{ l := 0, li := 9, msg := .incompleteString }] ∧
    breaks b!"byte \"a\nb" = 1 ∧ column b!"byte \"a\nb" = 1 := by
  decide +kernel

/-- **C06** (partial: bodies without two adjacent backslashes; see `C06_false`.)  Every string
token ends at the first quote not escaped in TEAL's sense, and if a string is reported
unterminated then indeed no unescaped quote follows. -/
theorem C06_string_end_partial (src : Bytes) :
    ∃ ps tail, Decomposes src (readTokens src).1 ps tail ∧
      (∀ p ∈ ps, ∀ body, p.tok.t = .value → p.raw = chQuote :: (body ++ [chQuote]) →
        NoDoubleBackslash body → LiteralBody body) ∧
      ((readTokens src).2 ≠ [] → ∃ bl s, tail = bl ++ chQuote :: s ∧ (∀ x ∈ bl, Blank x) ∧
        (NoDoubleBackslash s → ¬ ∃ body rest, s = body ++ chQuote :: rest ∧ LiteralBody body)) := by
  obtain ⟨ps, tail, hd, ht⟩ := C01_lossless src
  refine ⟨ps, tail, hd, ?_, ?_⟩
  · intro p hp body hv hraw hnd
    rcases (hd.pieces p hp).2 with ⟨ht, _, _⟩ | ⟨ht, _, _⟩ | ⟨ht, _, _, hq, _⟩ |
      ⟨ht, body', u, hr, _, _, hn, hl⟩
    · rw [hv] at ht; simp at ht
    · rw [hv] at ht; simp at ht
    · rw [hraw] at hq; simp at hq
    · rw [hraw] at hr
      simp only [List.cons.injEq, true_and, List.append_cancel_right_eq] at hr
      subst hr
      exact literalBody_of_noQuote _ chQuote (by decide) hn hl hnd
  · intro hne
    rcases ht with ⟨h, _⟩ | ⟨_, bl, s, h1, h2, h3⟩
    · exact absurd h hne
    · refine ⟨bl, s, h1, h2, ?_⟩
      rintro hnd ⟨body, rest, rfl, hb⟩
      exact noQuote_no_literal body hb chQuote rest (by decide) h3 hnd

/-- **C06 is false of the code**: `"a\\"` is a complete TEAL literal but is reported as
unterminated. -/
theorem C06_false : LiteralBody b!"a\\\\" ∧
    readTokens (chQuote :: (b!"a\\\\" ++ [chQuote])) =
      ([], [{ l := 0, li := 5, msg := .incompleteString }]) :=
  ⟨.plain _ _ (by decide) (by decide) (.esc _ _ .nil), by decide +kernel⟩

/-- A string with an escaped quote is one token. -/
example : (readTokens b!"byte \"a\\\"b\" x").1.map Token.v = [b!"byte", b!"\"a\"b\"", b!"x"] := by
  decide +kernel

end Teal.Props
