import Verif.Lemmas.Doc
import Verif.Props.Lexer

/-!
# Properties C07–C10: editor lines, ranges, semantic tokens
-/

namespace Teal.Props

open Teal Spec

theorem splitRec_interleave (cur s : Bytes) (hcur : ∀ x ∈ cur, ¬ Break x) :
    ∃ brs, cur ++ s = interleave (splitRec cur s) brs ∧
      (splitRec cur s).length = brs.length + 1 ∧
      (∀ b ∈ brs, b = [chLF] ∨ b = [chCR, chLF] ∨ b = [chCR]) ∧
      (∀ line ∈ splitRec cur s, ∀ x ∈ line, ¬ Break x) ∧
      (splitRec cur s).length = breaks s + 1 := by
  have key : ∀ (cur b : Bytes) (ls brs : List Bytes), ls ≠ [] →
      interleave (cur :: ls) (b :: brs) = cur ++ b ++ interleave ls brs := by
    intro cur b ls brs h
    cases ls with
    | nil => exact absurd rfl h
    | cons x xs => rfl
  fun_induction splitRec cur s with
  | case1 cur => exact ⟨[], by simp [interleave], rfl, by simp, by simpa using hcur, rfl⟩
  | case2 cur c hc =>
    refine ⟨[[c]], by simp [interleave], rfl, ?_, ?_, by simp [breaks, hc]⟩
    · rcases hc with rfl | rfl <;> simp
    · intro line hl
      simp at hl
      rcases hl with rfl | rfl
      · exact hcur
      · simp
  | case3 cur c hc =>
    refine ⟨[], by simp [interleave], rfl, by simp, ?_, by simp [breaks, hc]⟩
    intro line hl x hx
    simp at hl; subst hl
    rcases List.mem_append.1 hx with hx | hx
    · exact hcur x hx
    · simp at hx; subst hx; exact hc
  | case4 cur c d t hcd ih =>
    obtain ⟨rfl, rfl⟩ := hcd
    obtain ⟨brs, e1, e2, e3, e4, e5⟩ := ih (by simp)
    refine ⟨[chCR, chLF] :: brs, ?_, by simp [e2], ?_, ?_, by simp [breaks, e5]⟩
    · rw [key _ _ _ _ (splitRec_ne _ _), ← e1]; simp
    · intro b hb
      rcases List.mem_cons.1 hb with rfl | hb
      · simp
      · exact e3 b hb
    · intro line hl
      rcases List.mem_cons.1 hl with rfl | hl
      · exact hcur
      · exact e4 line hl
  | case5 cur c d t h1 h2 ih =>
    obtain ⟨brs, e1, e2, e3, e4, e5⟩ := ih (by simp)
    refine ⟨[c] :: brs, ?_, by simp [e2], ?_, ?_, by rw [breaks, if_neg h1, if_pos h2]; simp [e5]⟩
    · rw [key _ _ _ _ (splitRec_ne _ _), ← e1]; simp
    · intro b hb
      rcases List.mem_cons.1 hb with rfl | hb
      · rcases h2 with rfl | rfl <;> simp
      · exact e3 b hb
    · intro line hl
      rcases List.mem_cons.1 hl with rfl | hl
      · exact hcur
      · exact e4 line hl
  | case6 cur c d t h1 h2 ih =>
    obtain ⟨brs, e1, e2, e3, e4, e5⟩ := ih (by
      intro x hx
      rcases List.mem_append.1 hx with hx | hx
      · exact hcur x hx
      · simp at hx; subst hx; exact h2)
    exact ⟨brs, by rw [← e1]; simp, e2, e3, e4, by rw [breaks, if_neg h1, if_neg h2]; exact e5⟩

/-- **C07** Splitting a document into lines: the document is the lines with a line break between
each two, there is exactly one more line than line breaks, and no line contains one. -/
theorem C07_split_lines (s : Bytes) :
    ∃ brs, s = interleave (splitLines s) brs ∧ (splitLines s).length = brs.length + 1 ∧
      (∀ b ∈ brs, b = [chLF] ∨ b = [chCR, chLF] ∨ b = [chCR]) ∧
      (∀ line ∈ splitLines s, ∀ x ∈ line, ¬ Break x) ∧
      (splitLines s).length = breaks s + 1 := by
  rw [splitLines_eq]
  simpa using splitRec_interleave [] s (by simp)

example : splitLines b!"a\r\nb\n\rc" = [b!"a", b!"b", b!"", b!"c"] := by decide +kernel

/-- **C08** (partial: for tokens up to the first string literal containing a line break; see
`C08_false`.)  The text of a token is found in line `tok.l` of the split document, between the
columns `tok.b` and `tok.e`. -/
theorem C08_lines_agree_partial (src : Bytes) :
    ∃ ps tail, Decomposes src (readTokens src).1 ps tail ∧
      ∀ ps1 p ps2, ps = ps1 ++ p :: ps2 → OneLineStrings (ps1 ++ [p]) → p.tok.t ≠ .eol →
        ∃ line, (splitLines src)[p.tok.l]? = some line ∧
          (line.drop p.tok.b).take (p.tok.e - p.tok.b) = p.raw := by
  obtain ⟨ps, tail, hd, hp⟩ := C02_positions_partial src
  refine ⟨ps, tail, hd, ?_⟩
  intro ps1 p ps2 heq hone hne
  obtain ⟨he, hpos⟩ := hp ps1 p ps2 heq
  obtain ⟨hl, hb⟩ := hpos (fun q hq => hone q (by simp [hq]))
  -- the spelling has no line break
  have hraw : ∀ x ∈ p.raw, ¬ Break x := by
    rcases (hd.pieces p (by simp [heq])).2 with ⟨ht, _⟩ | ⟨ht, hr, hv⟩ | ⟨ht, _⟩ | ⟨ht, _⟩
    · exact absurd ht hne
    · rw [hr]
      intro x hx
      simp only [List.mem_cons] at hx
      rcases hx with rfl | rfl | hx
      · decide
      · decide
      · exact hv x hx
    · exact hone p (by simp) ht
    · exact hone p (by simp) ht
  have hsrc : src = (textOf ps1 ++ p.blank) ++ (p.raw ++ (textOf ps2 ++ tail)) := by
    rw [hd.src_eq, heq]
    simp [textOf]
  generalize hA : textOf ps1 ++ p.blank = A at *
  generalize hB : textOf ps2 ++ tail = B at *
  by_cases hrn : p.raw = []
  · exfalso
    rcases (hd.pieces p (by simp [heq])).2 with ⟨ht, _⟩ | ⟨ht, hr, hv⟩ | ⟨ht, _, hne, _⟩ | ⟨ht, _, _, hr, _⟩
    · exact hne ht
    · rw [hr] at hrn; simp at hrn
    · exact hne hrn
    · rw [hr] at hrn; simp at hrn
  obtain ⟨ini, last, f, tl, e1, e2, e3, e4⟩ := splitRec_append A (p.raw ++ B) (by
    rintro ⟨_, h2⟩
    cases hr : p.raw with
    | nil => exact hrn hr
    | cons x r =>
      rw [hr] at h2 hraw
      simp at h2
      exact hraw x (by simp) (Or.inr h2)) []
  obtain ⟨ini', last', e1', e5, e6⟩ := splitRec_last A [] (by simp)
  rw [e1] at e1'
  obtain ⟨rfl, e7⟩ := List.append_inj' e1' rfl
  simp only [List.cons.injEq, and_true] at e7
  subst e7
  obtain ⟨ini2, last2, f2, tl2, g1, g2, g3, g4⟩ := splitRec_append p.raw B (by
    rintro ⟨h1, _⟩
    exact hraw chCR (List.mem_of_getLast? h1) (Or.inl rfl)) []
  rw [splitRec_nobreak _ hraw] at g1
  have hini2 : ini2 = [] := by
    cases ini2 with
    | nil => rfl
    | cons x y => simp at g1
  subst hini2
  simp only [List.nil_append, List.cons.injEq, and_true] at g1
  subst g1
  rw [g3] at e2
  simp only [List.nil_append, List.cons.injEq] at e2
  obtain ⟨rfl, rfl⟩ := e2
  refine ⟨last ++ (p.raw ++ f2), ?_, ?_⟩
  · rw [splitLines_eq, hsrc, e3, hl, ← e4]
    simp
  · have hbl : p.tok.b = last.length := by rw [hb, e5]; simp
    rw [he, hbl]
    simp

/-- **C08 is false of the code**: in this document the lexer reports the label `x:` on line 1,
but line 1 of the split document is `b"`. -/
theorem C08_false : ∃ src tok, tok ∈ (readTokens src).1 ∧ tok.v = b!"x:" ∧
    (splitLines src)[tok.l]? = some b!"b\"" :=
  ⟨b!"byte \"a\nb\"\nx:", { v := b!"x:", l := 1, b := 0, e := 2, t := .value },
    by decide +kernel, rfl, by decide +kernel⟩

/-! ## Semantic tokens -/

theorem toUint32_of_range (x : Int) (h0 : 0 ≤ x) (h1 : x < 4294967296) : ((toUint32 x : Nat) : Int) = x := by
  unfold toUint32; omega

theorem encodeLoop_length (t : List SemanticToken) : ∀ prev, (encodeLoop prev t).length = 5 * t.length := by
  induction t with
  | nil => intro prev; rfl
  | cons a t ih => intro prev; simp [encodeLoop, ih]; omega

theorem decode_encodeLoop (t : List SemanticToken) : ∀ prev : SemanticToken,
    0 ≤ prev.line → 0 ≤ prev.index → (∀ x ∈ t, Fits x) →
    (∀ x ∈ t, prev.line < x.line ∨ prev.line = x.line ∧ prev.index ≤ x.index) →
    t.Pairwise (fun a b => SemanticToken.less b a = false) →
    semDecode prev.line prev.index (encodeLoop prev t) = some t := by
  induction t with
  | nil => intro prev _ _ _ _ _; rfl
  | cons a t ih =>
    intro prev h0 h1 hf hp hs
    obtain ⟨⟨l0, l1⟩, ⟨i0, i1⟩, ⟨n0, n1⟩, ⟨t0, t1⟩, ⟨m0, m1⟩⟩ := hf a (by simp)
    rw [List.pairwise_cons] at hs
    have hrec := ih a l0 i0 (fun x hx => hf x (by simp [hx])) (fun x hx => by
      have := hs.1 x hx
      unfold SemanticToken.less at this
      split at this
      · simp at this; right; omega
      · simp at this; left; omega) hs.2
    have hpa := hp a (by simp)
    rw [encodeLoop, semDecode]
    have e1 : ((toUint32 (a.line - prev.line) : Nat) : Int) = a.line - prev.line :=
      toUint32_of_range _ (by omega) (by omega)
    have e2 : prev.line + ((toUint32 (a.line - prev.line) : Nat) : Int) = a.line := by omega
    have e3 : (if toUint32 (a.line - prev.line) = 0 then
        prev.index + ((if a.line = prev.line then toUint32 (a.index - prev.index) else toUint32 a.index : Nat) : Int)
        else ((if a.line = prev.line then toUint32 (a.index - prev.index) else toUint32 a.index : Nat) : Int)) = a.index := by
      by_cases hz : a.line = prev.line
      · rw [if_pos (by omega), if_pos hz, toUint32_of_range _ (by omega) (by omega)]; omega
      · rw [if_neg (by omega), if_neg hz, toUint32_of_range _ (by omega) (by omega)]
    simp only [e2, e3, hrec, Option.map_some, toUint32_of_range _ n0 n1, toUint32_of_range _ t0 t1,
      toUint32_of_range _ m0 m1]

/-- **C09** Encoding semantic tokens with 32-bit coordinates, given in any order, yields five
numbers per token from which a client recovers the tokens, ordered by line, then column. -/
theorem C09_encode_decode (sort : List SemanticToken → List SemanticToken)
    (hsort : SortsBy SemanticToken.less sort) (ts : List SemanticToken) (hf : ∀ t ∈ ts, Fits t) :
    (semEncode sort ts).length = 5 * ts.length ∧
    ∃ ts', semDecode 0 0 (semEncode sort ts) = some ts' ∧ ts'.Perm ts ∧
      ts'.Pairwise (fun a b => a.line < b.line ∨ a.line = b.line ∧ a.index ≤ b.index) := by
  obtain ⟨hp, hs⟩ := hsort ts
  refine ⟨by rw [semEncode, encodeLoop_length, hp.length_eq], sort ts, ?_, hp, ?_⟩
  · refine decode_encodeLoop (sort ts) ⟨0, 0, 0, 0, 0⟩ (Int.le_refl _) (Int.le_refl _)
      (fun x hx => hf x (hp.mem_iff.1 hx)) ?_ hs
    intro x hx
    have := hf x (hp.mem_iff.1 hx)
    unfold Fits at this
    simp only []; omega
  · refine hs.imp ?_
    intro a b h
    unfold SemanticToken.less at h
    split at h
    · simp at h; right; omega
    · simp at h; left; omega

/-- The sorting contract is met, e.g. by merge sort. -/
example : SortsBy SemanticToken.less
    (fun t => t.mergeSort (fun a b => !SemanticToken.less b a)) := by
  intro t
  refine ⟨List.mergeSort_perm _ _, ?_⟩
  have h := List.pairwise_mergeSort (le := fun a b => !SemanticToken.less b a) (by
    intro a b c h1 h2
    simp only [SemanticToken.less, Bool.not_eq_true'] at *
    split at h1 <;> split at h2 <;> split <;> simp at * <;> omega) (by
    intro a b
    simp only [SemanticToken.less, Bool.or_eq_true, Bool.not_eq_true']
    split <;> split <;> simp only [decide_eq_false_iff_not] at * <;> omega) t
  exact h.imp (by simp)

example : Fits { line := 3, index := 4, length := 5, type := 1, modifiers := 0 } := by
  simp [Fits]

/-! ## Ranges -/

/-- **C10** Overlap is symmetric. -/
theorem C10_symmetric (a b : Range) : Overlaps a b = Overlaps b a := by
  unfold Overlaps
  rw [Bool.eq_iff_iff]
  simp only [Bool.and_eq_true, decide_eq_true_eq]
  constructor <;> (rintro ⟨⟨⟨h1, h2⟩, h3⟩, h4⟩; exact ⟨⟨⟨h2, h1⟩, h4⟩, h3⟩)

/-- **C10** Well-formed ranges reported as overlapping do share a position. -/
theorem C10_sound (a b : Range) (ha : WellFormed a) (hb : WellFormed b)
    (h : Overlaps a b = true) : ∃ p, InRange p a ∧ InRange p b := by
  simp only [Overlaps, Bool.and_eq_true, decide_eq_true_eq] at h
  obtain ⟨⟨⟨h1, h2⟩, h3⟩, h4⟩ := h
  simp only [WellFormed, InRange, Pos.before] at *
  -- the later of the two starts is shared
  by_cases hlt : a.startLine < b.startLine ∨ a.startLine = b.startLine ∧ a.startCharacter ≤ b.startCharacter
  · refine ⟨(b.startLine, b.startCharacter), ⟨hlt, ?_⟩, Or.inr ⟨rfl, Int.le_refl _⟩, hb⟩
    show b.startLine < a.endLine ∨ b.startLine = a.endLine ∧ b.startCharacter ≤ a.endCharacter
    omega
  · refine ⟨(a.startLine, a.startCharacter), ⟨Or.inr ⟨rfl, Int.le_refl _⟩, ha⟩, ?_, ?_⟩
    · show b.startLine < a.startLine ∨ b.startLine = a.startLine ∧ b.startCharacter ≤ a.startCharacter
      omega
    · show a.startLine < b.endLine ∨ a.startLine = b.endLine ∧ a.startCharacter ≤ b.endCharacter
      omega

/-- **C10** (partial: for ranges that do not span lines, as all tokens, symbols and diagnostics;
see `C10_false`.) Ranges are reported overlapping exactly when they share a position. -/
theorem C10_iff_partial (a b : Range) (ha : WellFormed a) (hb : WellFormed b)
    (ha1 : a.startLine = a.endLine) (hb1 : b.startLine = b.endLine) :
    Overlaps a b = true ↔ ∃ p, InRange p a ∧ InRange p b := by
  refine ⟨C10_sound a b ha hb, ?_⟩
  rintro ⟨⟨l, c⟩, h1, h2⟩
  simp only [InRange, Pos.before] at h1 h2
  simp only [Overlaps, Bool.and_eq_true, decide_eq_true_eq]
  omega

/-- **C10** (partial: exactly what goes wrong.) Ranges of any shape are reported overlapping exactly when
they share a position and, besides, their columns cross as if all of it were on one line. -/
theorem C10_columns_partial (a b : Range) (ha : WellFormed a) (hb : WellFormed b) :
    Overlaps a b = true ↔ (∃ p, InRange p a ∧ InRange p b) ∧
      a.startCharacter ≤ b.endCharacter ∧ b.startCharacter ≤ a.endCharacter := by
  constructor
  · intro h
    refine ⟨C10_sound a b ha hb h, ?_⟩
    simp only [Overlaps, Bool.and_eq_true, decide_eq_true_eq] at h
    exact ⟨h.1.1.1, h.1.1.2⟩
  · rintro ⟨⟨⟨l, c⟩, h1, h2⟩, h3, h4⟩
    simp only [InRange, Pos.before] at h1 h2
    simp only [Overlaps, Bool.and_eq_true, decide_eq_true_eq]
    omega

/-- **C10** A well-formed single-line range overlaps itself. -/
theorem C10_self (a : Range) (ha : WellFormed a) (ha1 : a.startLine = a.endLine) :
    Overlaps a a = true := by
  simp only [WellFormed, Pos.before] at ha
  simp only [Overlaps, Bool.and_eq_true, decide_eq_true_eq]
  omega

/-- **C10 is false of the code** for ranges spanning lines: a selection from (0,5) to (1,2)
contains all of (0,7)–(0,8), and even itself, but is not reported as overlapping. -/
theorem C10_false :
    (∃ a b p, WellFormed a ∧ WellFormed b ∧ InRange p a ∧ InRange p b ∧ Overlaps a b = false) ∧
    (∃ a, WellFormed a ∧ Overlaps a a = false) :=
  ⟨⟨⟨0, 5, 1, 2⟩, ⟨0, 7, 0, 8⟩, (0, 7), by simp [WellFormed, Pos.before],
    by simp [WellFormed, Pos.before], by simp [InRange, Pos.before],
    by simp [InRange, Pos.before], by decide⟩,
   ⟨⟨0, 5, 1, 2⟩, by simp [WellFormed, Pos.before], by decide⟩⟩

example : WellFormed ⟨3, 1, 3, 9⟩ ∧ (⟨3, 1, 3, 9⟩ : Range).startLine = 3 := by
  simp [WellFormed, Pos.before]

end Teal.Props
