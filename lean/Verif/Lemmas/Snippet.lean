import Verif.Lemmas.Text
import Verif.Lemmas.Reprint
import Verif.Props.Signature
import Verif.Props.Accept
import Verif.Props.Actions2
import Verif.Spec.Snippet

/-!
# Snippets, and texts laid out with blanks in front of the lines
-/

namespace Teal
open Teal.Spec Teal.Props

/-! ## Laid out texts -/

/-- A line: what is in front of it, its words and its end. -/
structure Laid where
  indent : Bytes
  raws : List Bytes
  stop : Bytes

def Laid.text (x : Laid) : Bytes := x.indent ++ (lineText x.raws ++ x.stop)

structure Laid.Reads (x : Laid) (vs : List Bytes) : Prop where
  blank : ∀ c ∈ x.indent, Blank c
  words : WritesAll x.raws vs
  stop : x.stop = [chLF] ∨ x.stop = [chCR, chLF]

inductive LaidAll : List Laid → List (List Bytes) → Prop
  | nil : LaidAll [] []
  | cons {x vs xs vss} (h : x.Reads vs) (h' : LaidAll xs vss) : LaidAll (x :: xs) (vs :: vss)

def laidKeys (l : Nat) : List (Bytes × List Bytes) → List (Nat × Bytes × TokenType)
  | [] => []
  | (e, vs) :: ls => vs.map (fun v => (l, v, .value)) ++ (l, e, .eol) :: laidKeys (l + 1) ls

theorem lexes_indent {l : Nat} {rest : Bytes} {ks : List (Nat × Bytes × TokenType)} : ∀ (i : Bytes) (_ : ∀ c ∈ i, Blank c)
    (_ : ∀ c, ∃ us, Lexes l c rest us none ∧ us.map (fun t => (t.l, t.v, t.t)) = ks) (c : Nat),
    ∃ us, Lexes l c (i ++ rest) us none ∧ us.map (fun t => (t.l, t.v, t.t)) = ks
  | [], _, h, c => h c
  | x :: i, hb, h, c => by
    obtain ⟨us, h1, h2⟩ := lexes_indent i (fun d hd => hb d (by simp [hd])) h (c + 1)
    exact ⟨us, .blank _ _ _ _ _ _ (hb x (by simp)) h1, h2⟩

theorem lexes_laid {xs : List Laid} {vss : List (List Bytes)} (h : LaidAll xs vss) : ∀ l,
    ∃ us, Lexes l 0 (xs.flatMap Laid.text) us none ∧ us.map (fun t => (t.l, t.v, t.t)) = laidKeys l ((xs.map Laid.stop).zip vss) := by
  induction h with
  | nil => exact fun l => ⟨[], .done _ _, rfl⟩
  | @cons x vs xs vss hx h' ih =>
    intro l
    obtain ⟨us, h1, h2⟩ := ih (l + 1)
    have hbreak : AtEndOr Break (x.stop ++ xs.flatMap Laid.text) := by
      rcases hx.stop with h | h <;> rw [h]
      · exact .inr ⟨_, _, rfl, .inr rfl⟩
      · exact .inr ⟨_, _, rfl, .inl rfl⟩
    have := lexes_line hx.words l (x.stop ++ xs.flatMap Laid.text) (⟨x.stop, l, 0, 0, .eol⟩ :: us) hbreak (by
      intro c
      exact ⟨_, .eol l c x.stop (xs.flatMap Laid.text) us none (by rcases hx.stop with h | h; exact .inl h; exact .inr (.inl h)) h1, rfl⟩)
    obtain ⟨us', h3, h4⟩ := lexes_indent x.indent hx.blank this 0
    refine ⟨us', ?_, ?_⟩
    · rw [List.flatMap_cons, Laid.text, List.append_assoc, List.append_assoc]; exact h3
    · rw [h4, List.map_cons, h2]; rfl

theorem laidKeys_ge (vs : List (Bytes × List Bytes)) : ∀ l, ∀ x ∈ laidKeys l vs, l ≤ x.1 := by
  induction vs with
  | nil => intro l x hx; cases hx
  | cons v vs ih =>
    intro l x hx
    rcases List.mem_append.1 hx with h | h
    · obtain ⟨w, _, rfl⟩ := List.mem_map.1 h; exact Nat.le_refl _
    · rcases List.mem_cons.1 h with rfl | h
      · exact Nat.le_refl _
      · have := ih _ x h; omega

theorem laidKeys_words (vs : List (Bytes × List Bytes)) : ∀ l k,
    ((laidKeys l vs).filter fun x => decide (x.1 = l + k) && decide (x.2.2 = .value)).map (·.2.1) = ((vs.map (·.2))[k]?).getD [] := by
  induction vs with
  | nil => intro l k; rfl
  | cons v vs ih =>
    intro l k
    rw [laidKeys, List.filter_append, List.map_append]
    cases k with
    | zero =>
      rw [List.filter_eq_self.2, List.filter_eq_nil_iff.2]
      · simp [Function.comp_def]
      · intro x hx
        rcases List.mem_cons.1 hx with rfl | h
        · simp
        · have := laidKeys_ge _ _ x h
          simp only [Bool.and_eq_true, decide_eq_true_eq, not_and]
          omega
      · intro x hx
        obtain ⟨w, _, rfl⟩ := List.mem_map.1 hx
        simp
    | succ k =>
      rw [List.filter_eq_nil_iff.2]
      · rw [List.filter_cons_of_neg (by simp), show l + (k + 1) = l + 1 + k by omega, ih]
        rfl
      · intro x hx
        obtain ⟨w, _, rfl⟩ := List.mem_map.1 hx
        simp

theorem laidKeys_count (vs : List (Bytes × List Bytes)) : ∀ l, ((laidKeys l vs).getLast?.map (·.1 + 1)).getD l = l + vs.length := by
  induction vs with
  | nil => intro l; rfl
  | cons v vs ih =>
    intro l
    have := ih (l + 1)
    rw [laidKeys, List.getLast?_append, List.getLast?_cons]
    rw [List.length_cons]
    cases h : (laidKeys (l + 1) vs).getLast? with
    | none => rw [h] at this; simp at this ⊢; omega
    | some x => rw [h] at this; simp at this ⊢; omega

theorem laid_length {xs : List Laid} {vss : List (List Bytes)} (h : LaidAll xs vss) : xs.length = vss.length := by
  induction h with
  | nil => rfl
  | cons _ _ ih => simp [ih]

/-- The words and the number of lines of a laid out text. -/
theorem laid {xs : List Laid} {vss : List (List Bytes)} (h : LaidAll xs vss) :
    (readTokens (xs.flatMap Laid.text)).2 = [] ∧ lineCount (readTokens (xs.flatMap Laid.text)).1 = vss.length ∧
    ∀ k, (words (readTokens (xs.flatMap Laid.text)).1 k).map Token.v = (vss[k]?).getD [] := by
  obtain ⟨us, h1, h2⟩ := lexes_laid h 0
  rw [readTokens_of_lexes h1]
  have hl := laid_length h
  have hz : ((xs.map Laid.stop).zip vss).map (·.2) = vss := List.map_snd_zip (by simp [hl])
  refine ⟨rfl, ?_, ?_⟩
  · have := laidKeys_count ((xs.map Laid.stop).zip vss) 0
    rw [← h2, List.getLast?_map, Option.map_map, Nat.zero_add] at this
    simp only [List.length_zip, List.length_map, hl, Nat.min_self] at this
    exact this
  · intro k
    rw [words_keys, h2, ← Nat.zero_add k, laidKeys_words, hz, Nat.zero_add]

/-! ## Accepted texts -/

theorem wordLines_of {ts : List Token} {vss : List (List Bytes)} (hc : lineCount ts = vss.length)
    (hw : ∀ k, (words ts k).map Token.v = (vss[k]?).getD []) : wordLines ts = vss := by
  unfold wordLines
  apply List.ext_getElem?
  intro k
  rw [List.getElem?_map, hc]
  by_cases hk : k < vss.length
  · rw [List.getElem?_range hk, Option.map_some, hw, List.getElem?_eq_getElem hk, Option.getD_some]
  · rw [List.getElem?_eq_none (by simpa using hk), List.getElem?_eq_none (by simpa using hk), Option.map_none]

/-- A program in one version that keeps the rules is accepted. -/
theorem accepted {env : Env} {src s : Bytes} {v : Nat} {ls : List (List Bytes)} {os : List Op} (hq : (readTokens src).2 = [])
    (hc : lineCount (tokens src) = ls.length + 1)
    (hw : ∀ k, (words (tokens src) k).map Token.v = (([b!"#pragma", b!"version", s] :: ls)[k]?).getD [])
    (hs : IntLiteral s v) (h1 : 1 ≤ v) (h2 : v < 256) (hp : Program env.addrOk v ls os)
    (hnp : ∀ l ∈ ls, l.head? ≠ some b!"#pragma")
    (hav : ∀ l ∈ ls, ∀ w, l.head? = some w → ∀ d ∈ docOps, d.name = w → ∀ sig, ∃ m, d.since sig = some m ∧ m ≤ v)
    (htl : ∀ l ∈ ls, TidyLine v l) (hdef : ∀ o ∈ os, ∀ n, Refers o n → Op.label n ∈ os)
    (hun : ∀ n i j, DefinedAt os n i → DefinedAt os n j → i = j) (hpr : ∀ o ∈ os, ∀ v', o ≠ .pragma v')
    (hfw : ∀ k j n, Spec.At os k (.branch .b n) → DefinedAt os n j → k < j) :
    ∃ r, process env src = some r ∧ NoErrors r ∧ r.listing = .pragma v :: os := by
  have hpr' : Program env.addrOk 1 (wordLines (tokens src)) (.pragma v :: os) := by
    rw [wordLines_of (vss := [b!"#pragma", b!"version", s] :: ls) (by simpa using hc) hw]
    exact .version 1 s v hs h1 h2 ls os hp
  have hget : ∀ k, (words (tokens src) (k + 1)).map Token.v = [] ∨ ∃ l ∈ ls, (words (tokens src) (k + 1)).map Token.v = l := by
    intro k
    rw [hw, List.getElem?_cons_succ]
    cases h : ls[k]? with
    | none => exact .inl rfl
    | some l => exact .inr ⟨l, List.mem_of_getElem? h, rfl⟩
  have hver : ∀ k, VersionAt (tokens src) (k + 1) v := by
    intro k
    induction k with
    | zero =>
      refine .set 0 v ?_
      rw [hw]
      exact ⟨s, [], rfl, hs, h1, by omega⟩
    | succ k ih =>
      refine .keep _ v ih ?_
      rintro n ⟨s', rest, he, -⟩
      rcases hget k with h | ⟨l, hl, h⟩
      · rw [h] at he; cases he
      · rw [h] at he
        exact hnp l hl (by rw [he]; rfl)
  have htidy : Tidy (tokens src) := by
    intro k ver hk
    cases k with
    | zero =>
      rw [hw]
      show TidyLine ver [b!"#pragma", b!"version", s]
      unfold TidyLine
      dsimp only
      rw [if_neg (by decide), if_pos rfl]
      rintro n ⟨s', rest, he, hs', -, hlt⟩
      cases he
      have := C11_unambiguous _ _ _ hs hs' (by omega) hlt
      exact ⟨rfl, by omega⟩
    | succ k =>
      rw [Lsp.versionAt_unique hk v (hver k)]
      rcases hget k with h | ⟨l, hl, h⟩
      · rw [h]; exact trivial
      · rw [h]; exact htl l hl
  have hvalid : ValidProgram env.addrOk src (tokens src) (.pragma v :: os) := by
    refine ⟨fun h => (C05_error_iff src).2 h hq, hpr', ?_, ?_, ?_, ?_, ?_⟩
    · intro k V sig t d ht hd hn hV hsig
      cases k with
      | zero =>
        exfalso
        have := hw 0
        rw [List.getElem?_cons_zero, Option.getD_some] at this
        have h0 : ((words (tokens src) 0).map Token.v).head? = some t.v := by rw [List.head?_map, ht]; rfl
        rw [this, ← hn] at h0
        have hno : ∀ d ∈ docOps, d.name ≠ b!"#pragma" := by decide +kernel
        exact hno d hd (Option.some.inj h0).symm
      | succ k =>
        rw [Lsp.versionAt_unique hV v (hver k)]
        have h0 : ((words (tokens src) (k + 1)).map Token.v).head? = some t.v := by rw [List.head?_map, ht]; rfl
        rcases hget k with h | ⟨l, hl, h⟩
        · rw [h] at h0; cases h0
        · rw [h] at h0
          exact hav l hl t.v h0 d hd hn sig
    · intro i o n hi hr
      have ho : o ∈ (.pragma v :: os) := List.mem_of_getElem? hi
      rcases List.mem_cons.1 ho with rfl | ho
      · cases hr
      · obtain ⟨j, hj, e⟩ := List.mem_iff_getElem.1 (hdef o ho n hr)
        exact ⟨j + 1, by unfold DefinedAt Spec.At; rw [List.getElem?_cons_succ, List.getElem?_eq_getElem hj, e]⟩
    · intro n i j hi hj
      cases i with
      | zero => cases hi
      | succ i =>
        cases j with
        | zero => cases hj
        | succ j => rw [hun n i j hi hj]
    · intro k v' hk i o hi ho
      cases k with
      | zero => omega
      | succ k => exact absurd rfl (hpr _ (List.mem_of_getElem? hk) v')
    · intro k j n hk hj hlt
      cases k with
      | zero => cases hk
      | succ k =>
        cases j with
        | zero => cases hj
        | succ j =>
          have := hfw k j n hk hj
          omega
  obtain ⟨r, hr, hl, -⟩ := C72_program env src _ hpr'
  exact ⟨r, hr, (noErrors_iff env src r hr htidy).2 ⟨_, hvalid⟩, hl⟩

/-! ## Snippets in pieces -/

/-- What can be in a snippet: plain text and a tab stop with a proposal. -/
inductive Piece where
  | text (s : Bytes)
  | stop (i : Nat) (d : Bytes)

def Piece.src : Piece → Bytes
  | .text s => s
  | .stop i d => placeholder i d

def Piece.out (fill : Nat → Bytes) : Piece → Bytes
  | .text s => s
  | .stop i _ => fill i

def Piece.ok : Piece → Bool
  | .text s => s.all fun c => c != 36 && c != 92
  | .stop _ d => d.all fun c => c != 36 && c != 92 && c != 125

theorem expands_pieces {fill : Nat → Bytes} {r t : Bytes} (h : Expands fill r t) : ∀ (ps : List Piece), ps.all Piece.ok = true →
    Expands fill (ps.flatMap Piece.src ++ r) (ps.flatMap (Piece.out fill) ++ t)
  | [], _ => h
  | p :: ps, ho => by
    simp only [List.all_cons, Bool.and_eq_true] at ho
    have ih := expands_pieces h ps ho.2
    rw [List.flatMap_cons, List.flatMap_cons, List.append_assoc, List.append_assoc]
    cases p with
    | text s =>
      refine expands_text (fun c hc => ?_) ih
      simpa using List.all_eq_true.1 ho.1 c hc
    | stop i d =>
      refine expands_placeholder (fun c hc => ?_) ih
      simpa [and_assoc] using List.all_eq_true.1 ho.1 c hc

def socPieces : List Piece :=
  [.text b!"txn OnCompletion\nswitch ", .stop 1 b!"noop", .text b!" ", .stop 2 b!"optin", .text b!" ", .stop 3 b!"closeout", .text b!" ",
   .stop 4 b!"clearstate", .text b!" ", .stop 5 b!"updateapplication", .text b!" ", .stop 6 b!"deleteapplication", .text b!"\n",
   .stop 1 b!"noop", .text b!":\nb ", .stop 8 b!"then", .text b!"\n\n",
   .stop 2 b!"optin", .text b!":\nb ", .stop 8 b!"then", .text b!"\n\n",
   .stop 3 b!"closeout", .text b!":\nb ", .stop 8 b!"then", .text b!"\n\n",
   .stop 4 b!"clearstate", .text b!":\nb ", .stop 8 b!"then", .text b!"\n\n",
   .stop 5 b!"updateapplication", .text b!":\nb ", .stop 8 b!"then", .text b!"\n\n",
   .stop 6 b!"deleteapplication", .text b!":\n\n", .stop 8 b!"then", .text b!":\n"]

theorem soc_pieces : socText = socPieces.flatMap Piece.src ++ b!"$9" ∧ socPieces.all Piece.ok = true := by decide +kernel

def funcPieces : List Piece := [.stop 1 b!"sub", .text b!":\r\n\r\n\tproto ", .stop 2 b!"0", .text b!" ", .stop 3 b!"0", .text b!"\r\n\t"]

theorem func_pieces : funcText = funcPieces.flatMap Piece.src ++ b!"${4}\r\n\tretsub\r\n" ∧ funcPieces.all Piece.ok = true := by decide +kernel

theorem soc_expands (fill : Nat → Bytes) : Expands fill socText (socPieces.flatMap (Piece.out fill) ++ (fill 9 ++ [])) := by
  rw [soc_pieces.1]
  refine expands_pieces ?_ _ soc_pieces.2
  have : DecimalOf 9 b!"9" := by
    have := formatUint_decimal 9
    rwa [show formatUint 9 = b!"9" by decide +kernel] at this
  exact .stop 9 b!"9" [] [] this (by intro c s' h; cases h) .nil

theorem func_expands (fill : Nat → Bytes) :
    Expands fill funcText (funcPieces.flatMap (Piece.out fill) ++ (fill 4 ++ b!"\r\n\tretsub\r\n")) := by
  rw [func_pieces.1]
  refine expands_pieces ?_ _ func_pieces.2
  have : DecimalOf 4 b!"4" := by
    have := formatUint_decimal 4
    rwa [show formatUint 4 = b!"4" by decide +kernel] at this
  have h := Expands.braces (fill := fill) 4 b!"4" b!"\r\n\tretsub\r\n" b!"\r\n\tretsub\r\n" this
    (by simpa using expands_text (fill := fill) (s := b!"\r\n\tretsub\r\n") (by decide) .nil)
  exact h

end Teal
