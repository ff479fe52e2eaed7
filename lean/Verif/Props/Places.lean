import Verif.Spec.Places
import Verif.Props.Lexer

/-!
# C02 and C05: exactly which positions the lexer gives
-/

namespace Teal
open Teal.Spec

theorem lineTokens_snoc (ps : List Piece) (p : Piece) :
    lineTokens (ps ++ [p]) = lineTokens ps + if p.tok.t = .eol then 1 else 0 := by
  unfold lineTokens
  by_cases h : p.tok.t = .eol <;> simp [List.filter_cons, h]

theorem sinceLine_snoc (ps : List Piece) (p : Piece) :
    sinceLine (ps ++ [p]) = if p.tok.t = .eol then [] else sinceLine ps ++ (p.blank ++ p.raw) := by
  unfold sinceLine
  by_cases h : p.tok.t = .eol <;> simp [List.takeWhile_cons, h, textOf]

/-- What is left behind the pieces, and where the error is. -/
def TailAt (ps : List Piece) (tail : Bytes) : Option (Nat × Nat) → Prop
  | none => ∀ x ∈ tail, Blank x
  | some q => q = (lineTokens ps, (sinceLine ps).length + tail.length) ∧
      ∃ bl s, tail = bl ++ chQuote :: s ∧ (∀ x ∈ bl, Blank x) ∧ NoQuote chQuote s

/-- The pieces of `bl ++ s` behind those of `pre` are where the lexer says. -/
theorem lexes_places {l c : Nat} {s : Bytes} {ts : List Token} {err : Option (Nat × Nat)} (h : Lexes l c s ts err) :
    ∀ (pre : List Piece) (bl : Bytes), (∀ x ∈ bl, Blank x) → l = lineTokens pre → c = (sinceLine pre).length + bl.length →
      ∃ ps tail, Decomposes (bl ++ s) ts ps tail ∧
        (∀ ps1 p ps2, ps = ps1 ++ p :: ps2 → p.tok.l = lineTokens (pre ++ ps1) ∧
          p.tok.b = (sinceLine (pre ++ ps1)).length + p.blank.length ∧ p.tok.e = p.tok.b + p.raw.length) ∧
        TailAt (pre ++ ps) tail err := by
  -- a piece in front
  have front : ∀ {pre : List Piece} {bl raw rest : Bytes} {tok : Token} {ts : List Token} {err : Option (Nat × Nat)}, (∀ x ∈ bl, Blank x) →
      Spelled tok raw → tok.l = lineTokens pre → tok.b = (sinceLine pre).length + bl.length → tok.e = tok.b + raw.length →
      (∃ ps tail, Decomposes ([] ++ rest) ts ps tail ∧
        (∀ ps1 p ps2, ps = ps1 ++ p :: ps2 → p.tok.l = lineTokens ((pre ++ [⟨bl, raw, tok⟩]) ++ ps1) ∧
          p.tok.b = (sinceLine ((pre ++ [⟨bl, raw, tok⟩]) ++ ps1)).length + p.blank.length ∧ p.tok.e = p.tok.b + p.raw.length) ∧
        TailAt ((pre ++ [⟨bl, raw, tok⟩]) ++ ps) tail err) →
      ∃ ps tail, Decomposes (bl ++ (raw ++ rest)) (tok :: ts) ps tail ∧
        (∀ ps1 p ps2, ps = ps1 ++ p :: ps2 → p.tok.l = lineTokens (pre ++ ps1) ∧
          p.tok.b = (sinceLine (pre ++ ps1)).length + p.blank.length ∧ p.tok.e = p.tok.b + p.raw.length) ∧
        TailAt (pre ++ ps) tail err := by
    rintro pre bl raw rest tok ts err hbl hs hl hb he ⟨ps, tail, hd, hp, ht⟩
    refine ⟨⟨bl, raw, tok⟩ :: ps, tail, ⟨by simp [hd.toks_eq], ?_, ?_⟩, ?_, ?_⟩
    · have := hd.src_eq
      simp only [List.nil_append] at this
      rw [textOf_cons, this]
      simp
    · intro p hp'
      rcases List.mem_cons.1 hp' with rfl | hp'
      · exact ⟨hbl, hs⟩
      · exact hd.pieces p hp'
    · intro ps1 p ps2 heq
      cases ps1 with
      | nil =>
        simp only [List.nil_append, List.cons.injEq] at heq
        obtain ⟨rfl, rfl⟩ := heq
        simp only [List.append_nil]
        exact ⟨hl, hb, he⟩
      | cons q ps1 =>
        simp only [List.cons_append, List.cons.injEq] at heq
        obtain ⟨rfl, rfl⟩ := heq
        simpa using hp ps1 p ps2 rfl
    · simpa using ht
  induction h with
  | done l c =>
    intro pre bl hbl _ _
    exact ⟨[], bl, ⟨rfl, by simp [textOf], by simp⟩, by intro ps1 p ps2 h; simp at h, hbl⟩
  | blank l c x rest ts err hx h ih =>
    intro pre bl hbl hl hc
    have := ih pre (bl ++ [x]) (by
      intro y hy
      rcases List.mem_append.1 hy with hy | hy
      · exact hbl y hy
      · rw [List.mem_singleton.1 hy]; exact hx) hl (by simp [hc]; omega)
    simpa using this
  | eol l c raw rest ts err hraw h ih =>
    intro pre bl hbl hl hc
    refine front hbl (.eol rfl rfl ?_) hl hc rfl (ih _ [] (by simp) ?_ ?_)
    · rcases hraw with h | h | h
      · exact .inl h
      · exact .inr (.inl h)
      · exact .inr (.inr h.1)
    · rw [lineTokens_snoc]; simp [hl]
    · rw [sinceLine_snoc]; simp
  | comment l c v rest ts err hv hrest h ih =>
    intro pre bl hbl hl hc
    refine front (raw := chSlash :: chSlash :: v) hbl (.comment rfl rfl hv) hl hc (by simp <;> omega) (ih _ [] (by simp) ?_ ?_)
    · rw [lineTokens_snoc]; simp [hl]
    · rw [sinceLine_snoc]; simp [hc] <;> omega
  | bare l c v rest ts err hne hq hsl hv hrest h ih =>
    intro pre bl hbl hl hc
    refine front hbl (.bare rfl rfl hne hq hv) hl hc rfl (ih _ [] (by simp) ?_ ?_)
    · rw [lineTokens_snoc]; simp [hl]
    · rw [sinceLine_snoc]; simp [hc] <;> omega
  | quoted l c body rest ts err hbody hlast h ih =>
    intro pre bl hbl hl hc
    have := front (raw := chQuote :: (body ++ [chQuote])) (rest := rest) hbl
      (.quoted (tok := { v := chQuote :: (unescapeQuotes body ++ [chQuote]), l := l, b := c, e := c + (body.length + 2), t := .value })
        rfl body _ rfl rfl (unescaped_unescapeQuotes body) hbody hlast) hl hc (by simp <;> omega) (ih _ [] (by simp)
        (by rw [lineTokens_snoc]; simp [hl]) (by rw [sinceLine_snoc]; simp [hc] <;> omega))
    simpa using this
  | unterminated l c rest hn =>
    intro pre bl hbl hl hc
    refine ⟨[], bl ++ chQuote :: rest, ⟨rfl, by simp [textOf], by simp⟩, by intro ps1 p ps2 h; simp at h, ?_, bl, rest, rfl, hbl, hn⟩
    simp [hl, hc] <;> omega

end Teal

namespace Teal.Props
open Teal Teal.Spec

/-- **C02** (exactly).  The line of a token is the number of line breaks between tokens before it and its columns
are counted from the last of these: a line break in a string is taken for any other character of its line. -/
theorem C02_exact (src : Bytes) : ∃ ps tail, Decomposes src (readTokens src).1 ps tail ∧ Ends tail ∧
    ∀ ps1 p ps2, ps = ps1 ++ p :: ps2 →
      p.tok.l = lineTokens ps1 ∧ p.tok.b = (sinceLine ps1 ++ p.blank).length ∧ p.tok.e = p.tok.b + p.raw.length := by
  obtain ⟨err, h1, h2⟩ := readTokens_lexes src
  obtain ⟨ps, tail, hd, hp, ht⟩ := lexes_places h1 [] [] (by simp) rfl rfl
  refine ⟨ps, tail, hd, ?_, ?_⟩
  · cases err with
    | none => exact .inl ht
    | some q => exact .inr ht.2
  · intro ps1 p ps2 h
    simpa using hp ps1 p ps2 h

/-- **C05** (exactly).  The error about a string that is not closed is at the end of the text, where line breaks are
those between tokens: the ones in strings, and in the string that is not closed, are counted as characters. -/
theorem C05_exact (src : Bytes) : ∃ ps tail, Decomposes src (readTokens src).1 ps tail ∧ Ends tail ∧
    (readTokens src).2 = if (∀ x ∈ tail, Blank x) then [] else
      [{ l := lineTokens ps, li := (sinceLine ps ++ tail).length, msg := .incompleteString }] := by
  obtain ⟨err, h1, h2⟩ := readTokens_lexes src
  obtain ⟨ps, tail, hd, hp, ht⟩ := lexes_places h1 [] [] (by simp) rfl rfl
  refine ⟨ps, tail, hd, ?_, ?_⟩
  · cases err with
    | none => exact .inl ht
    | some q => exact .inr ht.2
  · rw [h2]
    cases err with
    | none => rw [if_pos (show ∀ x ∈ tail, Blank x from ht)]; rfl
    | some q =>
      obtain ⟨rfl, bl, s, rfl, -⟩ := ht
      rw [if_neg]
      · simp [errDiag]
      · intro hb
        exact absurd (hb chQuote (by simp)) (by decide)

/-- Behind the string the line is still the one it began on. -/
example : ∃ t ∈ (readTokens b!"byte \"a\nb\" // c\nint 1").1, t = ⟨b!" c", 0, 11, 15, .comment⟩ := by decide +kernel

end Teal.Props
