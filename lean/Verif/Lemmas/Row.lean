import Verif.Spec.Restore
import Verif.Props.Print
import Verif.Lemmas.LexesPieces

/-! Lines of words, spaces and a remark. -/

namespace Teal
open Spec P Props

/-- A line of words, with spaces between and around them, and perhaps a remark at its end. -/
inductive Row : Bytes → List Bytes → Prop
  | nil : Row [] []
  | blank (t : Bytes) (ws : List Bytes) (h : Row t ws) : Row (chSpace :: t) ws
  | word (raw v t : Bytes) (ws : List Bytes) (hw : Writes raw v) (ht : t = [] ∨ t.head? = some chSpace) (h : Row t ws) :
      Row (raw ++ t) (v :: ws)
  | remark (c : Bytes) (hc : ∀ x ∈ c, ¬ Break x) : Row (chSlash :: chSlash :: c) []

/-- The tokens but remarks, without their columns. -/
def tokenKeys (us : List Token) : List (Nat × Bytes × TokenType) :=
  (us.filter fun t => decide (t.t ≠ .comment)).map fun t => (t.l, t.v, t.t)

theorem tokenKeys_append (a b : List Token) : tokenKeys (a ++ b) = tokenKeys a ++ tokenKeys b := by
  simp [tokenKeys]

theorem lexes_row {s : Bytes} {ws : List Bytes} (h : Row s ws) (l : Nat) (tail : Bytes) (ht : AtEndOr Break tail) : ∀ c,
    ∃ pre c', tokenKeys pre = ws.map (fun v => (l, v, TokenType.value)) ∧
      ∀ us, Lexes l c' tail us none → Lexes l c (s ++ tail) (pre ++ us) none := by
  induction h with
  | nil => exact fun c => ⟨[], c, rfl, fun us h => h⟩
  | blank t ws h ih =>
    intro c
    obtain ⟨pre, c', h1, h2⟩ := ih (c + 1)
    exact ⟨pre, c', h1, fun us hu => .blank _ _ _ _ _ _ (.inl rfl) (h2 us hu)⟩
  | word raw v t ws hw hst h ih =>
    intro c
    have hstop : AtEndOr Stop (t ++ tail) := by
      rcases hst with rfl | hst
      · rcases ht with h | ⟨x, y, h, hx⟩
        · exact .inl h
        · exact .inr ⟨x, y, h, .inr hx⟩
      · cases t with
        | nil => simp at hst
        | cons x t =>
          simp only [List.head?_cons, Option.some.injEq] at hst
          subst hst
          exact .inr ⟨_, _, rfl, .inl (.inl rfl)⟩
    cases hw with
    | bare _ hne hq hsl hv =>
      obtain ⟨pre, c', h1, h2⟩ := ih (c + raw.length)
      refine ⟨⟨raw, l, c, c + raw.length, .value⟩ :: pre, c', ?_, fun us hu => ?_⟩
      · show (l, raw, TokenType.value) :: tokenKeys pre = _
        rw [h1]; rfl
      · rw [List.append_assoc]
        exact .bare l c raw (t ++ tail) (pre ++ us) none hne hq hsl hv hstop (h2 us hu)
    | quoted body u hu hb hl =>
      obtain ⟨pre, c', h1, h2⟩ := ih (c + (body.length + 2))
      refine ⟨⟨chQuote :: (unescapeQuotes body ++ [chQuote]), l, c, c + (body.length + 2), .value⟩ :: pre, c', ?_, fun us hus => ?_⟩
      · show (l, _, TokenType.value) :: tokenKeys pre = _
        rw [h1, ← unescape_eq hu]; rfl
      · have := Lexes.quoted l c body (t ++ tail) (pre ++ us) none hb hl (h2 us hus)
        simpa using this
  | remark r hr =>
    intro c
    refine ⟨[⟨r, l, c, c + (r.length + 2), .comment⟩], c + (r.length + 2), rfl, fun us hu => ?_⟩
    exact .comment l c r tail us none hr ht hu

/-- Printed lines and their words. -/
inductive Rows : List Bytes → List (List Bytes) → Prop
  | nil : Rows [] []
  | cons (s : Bytes) (ws : List Bytes) (ss : List Bytes) (vs : List (List Bytes)) (h : Row s ws) (h' : Rows ss vs) :
      Rows (s :: ss) (ws :: vs)

theorem lexes_rows {ss : List Bytes} {vs : List (List Bytes)} (h : Rows ss vs) : ∀ l,
    ∃ us, Lexes l 0 (ss.flatMap fun s => s ++ [chLF]) us none ∧ tokenKeys us = lineKeys l vs ∧
      (us.getLast?.map (·.l + 1)).getD l = l + vs.length := by
  induction h with
  | nil => exact fun l => ⟨[], .done _ _, rfl, rfl⟩
  | cons s ws ss vs hw h' ih =>
    intro l
    obtain ⟨us, h1, h2, h3⟩ := ih (l + 1)
    obtain ⟨pre, c', h4, h5⟩ := lexes_row hw l (chLF :: ss.flatMap fun s => s ++ [chLF]) (.inr ⟨_, _, rfl, .inr rfl⟩) 0
    refine ⟨pre ++ ⟨[chLF], l, c', c' + 1, .eol⟩ :: us, ?_, ?_, ?_⟩
    · rw [List.flatMap_cons, List.append_assoc]
      exact h5 _ (.eol l c' [chLF] _ us none (.inl rfl) h1)
    · rw [tokenKeys_append, h4]
      show _ ++ (l, [chLF], TokenType.eol) :: tokenKeys us = _
      rw [h2]; rfl
    · rw [List.getLast?_append, List.getLast?_cons, List.length_cons]
      cases hu : us.getLast? with
      | none => rw [hu] at h3; simp at h3 ⊢; omega
      | some x => rw [hu] at h3; simp at h3 ⊢; omega

theorem words_tokenKeys (ts : List Token) (k : Nat) : (words ts k).map Token.v =
    ((tokenKeys ts).filter fun x => decide (x.1 = k) && decide (x.2.2 = .value)).map (·.2.1) := by
  unfold words tokenKeys
  rw [List.filter_map, List.map_map, List.filter_filter]
  congr 1
  apply List.filter_congr
  intro t _
  cases ht : t.t <;> simp [ht]

/-- The words and the number of lines of printed rows. -/
theorem rows_words {ss : List Bytes} {vs : List (List Bytes)} (h : Rows ss vs) :
    lineCount (tokens (ss.flatMap fun s => s ++ [chLF])) = vs.length ∧
    ∀ k, (words (tokens (ss.flatMap fun s => s ++ [chLF])) k).map Token.v = (vs[k]?).getD [] := by
  obtain ⟨us, h1, h2, h3⟩ := lexes_rows h 0
  have ht : tokens (ss.flatMap fun s => s ++ [chLF]) = us := by
    show (readTokens _).1 = us
    rw [readTokens_of_lexes h1]
  rw [ht]
  refine ⟨?_, fun k => ?_⟩
  · rw [Nat.zero_add] at h3
    exact h3
  · rw [words_tokenKeys, h2, ← lineKeys_words vs 0 k, Nat.zero_add]

/-! ## Rows from words -/

theorem row_all {ws : List Bytes} (h : ∀ w ∈ ws, Writes w w) : Row (lineText ws) ws := by
  induction ws with
  | nil => exact .nil
  | cons w ws ih =>
    cases ws with
    | nil => simpa [lineText] using Row.word w w [] [] (h w (by simp)) (.inl rfl) .nil
    | cons x xs =>
      exact .word w w _ _ (h w (by simp)) (.inr rfl) (.blank _ _ (ih fun y hy => h y (by simp [hy])))

theorem row_bare {ws : List Bytes} (h : ∀ w ∈ ws, Bare w) : Row (lineText ws) ws := row_all fun w hw => (h w hw).writes

/-- Words before a row. -/
theorem row_cons {w t : Bytes} {ws : List Bytes} (hw : Writes w w) (h : Row t ws) : Row (w ++ chSpace :: t) (w :: ws) :=
  .word w w _ _ hw (.inr rfl) (.blank _ _ h)

theorem not_unescaped_inner {body u : Bytes} (h : Unescaped body u) (hu : chQuote ∉ u) : body = u ∧ chQuote ∉ body := by
  induction h with
  | nil => exact ⟨rfl, hu⟩
  | esc t u h ih => exact absurd (by simp) hu
  | keep c t u hc h ih =>
    obtain ⟨h1, h2⟩ := ih fun hm => hu (by simp [hm])
    rw [h1]
    exact ⟨rfl, hu⟩

/-- A word of a text that has no quote between its quotes is written as it is. -/
theorem writes_self {raw w : Bytes} (h : Writes raw w) (hn : NoInnerQuote w) : Writes w w := by
  cases h with
  | bare _ hne hq hsl hv => exact .bare _ hne hq hsl hv
  | quoted body u hu hb hl =>
    have := (not_unescaped_inner hu (hn u rfl)).1
    subst this
    exact .quoted body body hu hb hl

/-! ## Words kept in instructions -/

theorem token_writes {l c : Nat} {s : Bytes} {ts : List Token} {err : Option (Nat × Nat)} (h : Lexes l c s ts err) :
    ∀ t ∈ ts, t.t = .value → ∃ raw, Writes raw t.v := by
  induction h with
  | done => simp
  | blank l c x rest ts err hx h ih => exact ih
  | eol l c raw rest ts err hraw h ih =>
    intro t ht hv
    rcases List.mem_cons.1 ht with rfl | ht
    · cases hv
    · exact ih t ht hv
  | comment l c v rest ts err hv hrest h ih =>
    intro t ht hv
    rcases List.mem_cons.1 ht with rfl | ht
    · cases hv
    · exact ih t ht hv
  | bare l c v rest ts err hne hq hsl hv hrest h ih =>
    intro t ht _
    rcases List.mem_cons.1 ht with rfl | ht
    · exact ⟨v, .bare v hne hq hsl hv⟩
    · exact ih t ht ‹_›
  | quoted l c body rest ts err hbody hlast h ih =>
    intro t ht _
    rcases List.mem_cons.1 ht with rfl | ht
    · exact ⟨_, .quoted body _ (unescaped_unescapeQuotes body) hbody hlast⟩
    · exact ih t ht ‹_›
  | unterminated => simp

end Teal
