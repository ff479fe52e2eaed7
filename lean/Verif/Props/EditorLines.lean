import Verif.Spec.EditorLines
import Verif.Props.Places
import Verif.Props.Doc

/-!
# C08: on which line of the editor every token is
-/

namespace Teal
open Teal.Spec Teal.Props

theorem brokenLines_snoc (ps : List Piece) (p : Piece) :
    brokenLines (ps ++ [p]) = brokenLines ps + if p.tok.t = .eol then 0 else breaks p.raw := by
  simp [brokenLines]

theorem textOf_snoc (ps : List Piece) (p : Piece) : textOf (ps ++ [p]) = textOf ps ++ (p.blank ++ p.raw) := by
  simp [textOf]

theorem blank_not_break {x : UInt8} (h : Blank x) : ¬ Break x := by
  rintro (rfl | rfl) <;> revert h <;> unfold Blank <;> decide

/-- What is known of the text before a place: its line breaks are the line breaks between tokens and those in
strings, and the place is not inside a line break. -/
def Counted (pre : List Piece) (s : Bytes) : Prop :=
  breaks (textOf pre) = lineTokens pre + brokenLines pre ∧ ¬ ((textOf pre).getLast? = some chCR ∧ s.head? = some chLF)

theorem counted_next {pre : List Piece} {bl raw rest : Bytes} {tok : Token} (h : Counted pre (bl ++ (raw ++ rest)))
    (hbl : ∀ x ∈ bl, Blank x) (hne : raw ≠ []) (heol : tok.t = .eol → breaks raw = 1)
    (hsep : ¬ (raw.getLast? = some chCR ∧ rest.head? = some chLF)) : Counted (pre ++ [⟨bl, raw, tok⟩]) rest := by
  obtain ⟨h1, h2⟩ := h
  have hb : breaks bl = 0 := breaks_nobreak bl fun x hx => blank_not_break (hbl x hx)
  have hbr : breaks (bl ++ raw) = breaks raw := by
    rw [breaks_append, hb, Nat.zero_add]
    rintro ⟨h3, -⟩
    exact blank_not_break (hbl _ (List.mem_of_getLast? h3)) (.inl rfl)
  refine ⟨?_, ?_⟩
  · rw [textOf_snoc, breaks_append, h1, lineTokens_snoc, brokenLines_snoc]
    · simp only [hbr]
      split
      · rename_i h; rw [heol h]; omega
      · omega
    · simp only
      rintro ⟨h3, h4⟩
      refine h2 ⟨h3, ?_⟩
      rw [← List.append_assoc]
      generalize bl ++ raw = z at h4
      cases z with
      | nil => simp at h4
      | cons => simpa using h4
  · rw [textOf_snoc]
    simp only
    rw [← List.append_assoc, getLast?_append_ne _ _ hne]
    exact hsep

/-- The pieces are where the lexer says, and on the lines that their text is on. -/
theorem lexes_counted {l c : Nat} {s : Bytes} {ts : List Token} {err : Option (Nat × Nat)} (h : Lexes l c s ts err) :
    ∀ (pre : List Piece) (bl : Bytes), (∀ x ∈ bl, Blank x) → l = lineTokens pre → c = (sinceLine pre).length + bl.length →
      Counted pre (bl ++ s) →
      ∃ ps tail, Decomposes (bl ++ s) ts ps tail ∧
        ∀ ps1 p ps2, ps = ps1 ++ p :: ps2 → p.tok.l = lineTokens (pre ++ ps1) ∧
          p.tok.b = (sinceLine (pre ++ ps1)).length + p.blank.length ∧ p.tok.e = p.tok.b + p.raw.length ∧
          breaks (textOf (pre ++ ps1)) = lineTokens (pre ++ ps1) + brokenLines (pre ++ ps1) := by
  have front : ∀ {pre : List Piece} {bl raw rest : Bytes} {tok : Token} {ts : List Token}, (∀ x ∈ bl, Blank x) →
      Spelled tok raw → tok.l = lineTokens pre → tok.b = (sinceLine pre).length + bl.length → tok.e = tok.b + raw.length →
      Counted pre (bl ++ (raw ++ rest)) →
      (∃ ps tail, Decomposes ([] ++ rest) ts ps tail ∧
        ∀ ps1 p ps2, ps = ps1 ++ p :: ps2 → p.tok.l = lineTokens ((pre ++ [⟨bl, raw, tok⟩]) ++ ps1) ∧
          p.tok.b = (sinceLine ((pre ++ [⟨bl, raw, tok⟩]) ++ ps1)).length + p.blank.length ∧ p.tok.e = p.tok.b + p.raw.length ∧
          breaks (textOf ((pre ++ [⟨bl, raw, tok⟩]) ++ ps1)) = lineTokens ((pre ++ [⟨bl, raw, tok⟩]) ++ ps1) + brokenLines ((pre ++ [⟨bl, raw, tok⟩]) ++ ps1)) →
      ∃ ps tail, Decomposes (bl ++ (raw ++ rest)) (tok :: ts) ps tail ∧
        ∀ ps1 p ps2, ps = ps1 ++ p :: ps2 → p.tok.l = lineTokens (pre ++ ps1) ∧
          p.tok.b = (sinceLine (pre ++ ps1)).length + p.blank.length ∧ p.tok.e = p.tok.b + p.raw.length ∧
          breaks (textOf (pre ++ ps1)) = lineTokens (pre ++ ps1) + brokenLines (pre ++ ps1) := by
    rintro pre bl raw rest tok ts hbl hs hl hb he hcnt ⟨ps, tail, hd, hp⟩
    refine ⟨⟨bl, raw, tok⟩ :: ps, tail, ⟨by simp [hd.toks_eq], ?_, ?_⟩, ?_⟩
    · have := hd.src_eq
      simp only [List.nil_append] at this
      rw [textOf_cons, this]
      simp
    · intro p hp'
      rcases List.mem_cons.1 hp' with rfl | hp'
      · exact ⟨hbl, hs⟩
      · exact hd.pieces p hp'
    · intro ps1 p ps2 heq
      cases ps1 with
      | nil =>
        simp only [List.nil_append, List.cons.injEq] at heq
        obtain ⟨rfl, rfl⟩ := heq
        simp only [List.append_nil]
        exact ⟨hl, hb, he, hcnt.1⟩
      | cons q ps1 =>
        simp only [List.cons_append, List.cons.injEq] at heq
        obtain ⟨rfl, rfl⟩ := heq
        simpa using hp ps1 p ps2 rfl
  induction h with
  | done l c =>
    intro pre bl hbl _ _ _
    exact ⟨[], bl, ⟨rfl, by simp [textOf], by simp⟩, by intro ps1 p ps2 h; simp at h⟩
  | blank l c x rest ts err hx h ih =>
    intro pre bl hbl hl hc hcnt
    have := ih pre (bl ++ [x]) (by
      intro y hy
      rcases List.mem_append.1 hy with hy | hy
      · exact hbl y hy
      · rw [List.mem_singleton.1 hy]; exact hx) hl (by simp [hc]; omega) (by simpa using hcnt)
    simpa using this
  | eol l c raw rest ts err hraw h ih =>
    intro pre bl hbl hl hc hcnt
    refine front hbl (.eol rfl rfl ?_) hl hc rfl hcnt (ih _ [] (by simp) ?_ ?_ ?_)
    · rcases hraw with h | h | h
      · exact .inl h
      · exact .inr (.inl h)
      · exact .inr (.inr h.1)
    · rw [lineTokens_snoc]; simp [hl]
    · rw [sinceLine_snoc]; simp
    · refine counted_next hcnt hbl (by rcases hraw with rfl | rfl | ⟨rfl, -⟩ <;> simp)
        (fun _ => by rcases hraw with rfl | rfl | ⟨rfl, -⟩ <;> decide) ?_
      rcases hraw with rfl | rfl | ⟨rfl, h2⟩
      · rintro ⟨h1, -⟩; revert h1; decide
      · rintro ⟨h1, -⟩; revert h1; decide
      · rintro ⟨-, h1⟩; exact h2 h1
  | comment l c v rest ts err hv hrest h ih =>
    intro pre bl hbl hl hc hcnt
    refine front (raw := chSlash :: chSlash :: v) hbl (.comment rfl rfl hv) hl hc (by simp <;> omega) hcnt (ih _ [] (by simp) ?_ ?_ ?_)
    · rw [lineTokens_snoc]; simp [hl]
    · rw [sinceLine_snoc]; simp [hc] <;> omega
    · refine counted_next hcnt hbl (by simp) (by simp) ?_
      rintro ⟨h1, -⟩
      have := List.mem_of_getLast? h1
      simp only [List.mem_cons] at this
      rcases this with h | h | h
      · revert h; decide
      · revert h; decide
      · exact hv _ h (.inl rfl)
  | bare l c v rest ts err hne hq hsl hv hrest h ih =>
    intro pre bl hbl hl hc hcnt
    refine front hbl (.bare rfl rfl hne hq hv) hl hc rfl hcnt (ih _ [] (by simp) ?_ ?_ ?_)
    · rw [lineTokens_snoc]; simp [hl]
    · rw [sinceLine_snoc]; simp [hc] <;> omega
    · refine counted_next hcnt hbl hne (by simp) ?_
      rintro ⟨h1, -⟩
      have := hv _ (List.mem_of_getLast? h1)
      revert this
      unfold Stop Break
      decide
  | quoted l c body rest ts err hbody hlast h ih =>
    intro pre bl hbl hl hc hcnt
    have := front (raw := chQuote :: (body ++ [chQuote])) (rest := rest) hbl
      (.quoted (tok := { v := chQuote :: (unescapeQuotes body ++ [chQuote]), l := l, b := c, e := c + (body.length + 2), t := .value })
        rfl body _ rfl rfl (unescaped_unescapeQuotes body) hbody hlast) hl hc (by simp <;> omega) (by simpa using hcnt) (ih _ [] (by simp)
        (by rw [lineTokens_snoc]; simp [hl]) (by rw [sinceLine_snoc]; simp [hc] <;> omega)
        (counted_next (by simpa using hcnt) hbl (by simp) (by simp) (by
          rintro ⟨h1, -⟩
          rw [← List.cons_append, List.getLast?_concat] at h1
          revert h1; decide)))
    simpa using this
  | unterminated l c rest hn =>
    intro pre bl hbl hl hc _
    exact ⟨[], bl ++ chQuote :: rest, ⟨rfl, by simp [textOf], by simp⟩, by intro ps1 p ps2 h; simp at h⟩

/-- A piece of a text without a line break is on the line and at the column where the text before it ends. -/
theorem splitLines_piece (A raw B : Bytes) (hrn : raw ≠ []) (hraw : ∀ x ∈ raw, ¬ Break x) :
    ∃ line, (splitLines (A ++ (raw ++ B)))[breaks A]? = some line ∧ (line.drop (column A)).take raw.length = raw := by
  obtain ⟨ini, last, f, tl, e1, e2, e3, e4⟩ := splitRec_append A (raw ++ B) (by
    rintro ⟨_, h2⟩
    cases hr : raw with
    | nil => exact hrn hr
    | cons x r =>
      rw [hr] at h2 hraw
      simp at h2
      exact hraw x (by simp) (Or.inr h2)) []
  obtain ⟨ini', last', e1', e5, e6⟩ := splitRec_last A [] (by simp)
  rw [e1] at e1'
  obtain ⟨rfl, e7⟩ := List.append_inj' e1' rfl
  simp only [List.cons.injEq, and_true] at e7
  subst e7
  obtain ⟨ini2, last2, f2, tl2, g1, g2, g3, g4⟩ := splitRec_append raw B (by
    rintro ⟨h1, _⟩
    exact hraw chCR (List.mem_of_getLast? h1) (Or.inl rfl)) []
  rw [splitRec_nobreak _ hraw] at g1
  have hini2 : ini2 = [] := by
    cases ini2 with
    | nil => rfl
    | cons x y => simp at g1
  subst hini2
  simp only [List.nil_append, List.cons.injEq, and_true] at g1
  subst g1
  rw [g3] at e2
  simp only [List.nil_append, List.cons.injEq] at e2
  obtain ⟨rfl, rfl⟩ := e2
  refine ⟨last ++ (raw ++ f2), ?_, ?_⟩
  · rw [splitLines_eq, e3, ← e4]
    simp
  · have hbl : column A = last.length := by rw [e5]; simp
    rw [hbl]
    simp

end Teal

namespace Teal.Props
open Teal.Spec

/-- **C08** (exactly).  A token that does not itself go over several lines is found in the editor as many lines below
the line the lexer gives as there are line breaks in the strings before it, at the column counted from the last
line break of any kind. -/
theorem C08_exact (src : Bytes) : ∃ ps tail, Decomposes src (readTokens src).1 ps tail ∧
    ∀ ps1 p ps2, ps = ps1 ++ p :: ps2 → (∀ x ∈ p.raw, ¬ Break x) →
      (∃ line, (splitLines src)[p.tok.l + brokenLines ps1]? = some line ∧
        (line.drop (column (textOf ps1 ++ p.blank))).take p.raw.length = p.raw) ∧
      p.tok.b = (sinceLine ps1 ++ p.blank).length ∧ p.tok.e = p.tok.b + p.raw.length := by
  obtain ⟨err, h1, h2⟩ := readTokens_lexes src
  obtain ⟨ps, tail, hd, hp⟩ := lexes_counted h1 [] [] (by simp) rfl rfl ⟨rfl, by simp [textOf]⟩
  refine ⟨ps, tail, hd, ?_⟩
  intro ps1 p ps2 heq hraw
  obtain ⟨hl, hb, he, hbr⟩ := hp ps1 p ps2 heq
  simp only [List.nil_append] at hl hb hbr
  refine ⟨?_, by simpa using hb, he⟩
  have hpc := hd.pieces p (by simp [heq])
  have hrn : p.raw ≠ [] := by
    intro hrn
    rcases hpc.2 with ⟨_, _, hr⟩ | ⟨_, hr, _⟩ | ⟨_, _, hne, _⟩ | ⟨_, _, _, hr, _⟩
    · rw [hrn] at hr; simp at hr
    · rw [hr] at hrn; simp at hrn
    · exact hne hrn
    · rw [hr] at hrn; simp at hrn
  have hsrc : src = (textOf ps1 ++ p.blank) ++ (p.raw ++ (textOf ps2 ++ tail)) := by
    have := hd.src_eq
    simp only [List.nil_append] at this
    rw [this, heq]
    simp [textOf]
  have := splitLines_piece (textOf ps1 ++ p.blank) p.raw (textOf ps2 ++ tail) hrn hraw
  rw [← hsrc, breaks_snoc_nobreak _ _ (fun x hx => blank_not_break (hpc.1 x hx)), hbr, ← hl] at this
  exact this

-- The label is on line 1 for the lexer, and on line 2 of the editor.
example : ((readTokens b!"byte \"a\nb\"\nx:").1.map fun t => (t.v, t.l)).getLast? = some (b!"x:", 1) ∧
    (splitLines b!"byte \"a\nb\"\nx:")[2]? = some b!"x:" := by decide +kernel

end Teal.Props
