import Verif.Props.Lexer
import Verif.Props.Program

/-!
# Exactly which string literals end where they should
-/

namespace Teal

open Spec

theorem lexes_total (l c : Nat) (s : Bytes) : ∃ ts err, Lexes l c s ts err := by
  have key : ∀ (c d : Nat), (∃ ts err, Lexes 0 d (List.replicate c 32 ++ s) ts err) → ∃ ts err, Lexes 0 (d + c) s ts err := by
    intro c
    induction c with
    | zero => exact fun d h => h
    | succ c ih =>
      rintro d ⟨ts, err, h⟩
      have := lexes_inv h
      rw [List.replicate_succ, List.cons_append, show lexKind ((32 : UInt8) :: (List.replicate c 32 ++ s)) = .blank from by
        simp only [lexKind, if_pos (show Blank 32 by decide)]] at this
      obtain ⟨x, rest, h1, -, h2⟩ := this
      injection h1 with h1 h3
      subst h3
      have := ih (d + 1) ⟨ts, err, h2⟩
      rwa [show d + (c + 1) = d + 1 + c by omega]
  obtain ⟨err, h, -⟩ := readTokens_lexes (List.replicate c 32 ++ s)
  obtain ⟨ts, err, h⟩ := key c 0 ⟨_, err, h⟩
  have := lexes_shift h l
  rw [Nat.zero_add, Nat.zero_add] at this
  exact ⟨_, _, this⟩

theorem literal_noQuote {body : Bytes} (h : LiteralBody body) : ∀ p, NoQuote p body := by
  induction h with
  | nil => exact fun p => .nil p
  | plain c t hq hb h ih => exact fun p => .cons _ _ _ (fun h => absurd h hq) (ih _)
  | esc c t h ih => exact fun p => .cons _ _ _ (fun h => by cases h) (.cons _ _ _ (fun _ => rfl) (ih _))

end Teal

namespace Teal.Props

open Teal Spec

/-- **C06, exactly.**  Write a string literal of TEAL, with body `body`, where a literal may begin, and
anything behind it.  Its token is the literal, from quote to quote, exactly if the body does not end in a
backslash, that is unless the last thing in it is an escaped backslash. -/
theorem C06_exact (pre body rest : Bytes) (h1 : (readTokens pre).2 = []) (h2 : OpensLiteral readTokens pre) (hb : LiteralBody body) :
    (∃ tok ts, (readTokens (pre ++ chQuote :: (body ++ chQuote :: rest))).1 = (readTokens pre).1 ++ tok :: ts ∧
      Spelled tok (chQuote :: (body ++ [chQuote])) ∧ tok.e = tok.b + (body.length + 2)) ↔
    body.getLast? ≠ some chBackslash := by
  obtain ⟨tok, h2, hv⟩ := h2
  obtain ⟨err, h5, h6⟩ := readTokens_lexes pre
  have herr : err = none := by
    cases err with
    | none => rfl
    | some p => rw [h1] at h6; simp [errDiag] at h6
  obtain ⟨err', h7, h8⟩ := readTokens_lexes (pre ++ [chQuote, chQuote])
  rw [h2] at h7 h8
  have herr' : err' = none := by
    cases err' with
    | none => rfl
    | some p => simp [errDiag] at h8
  rw [herr'] at h7
  obtain ⟨l', c', h9⟩ := lexes_opens h5 herr tok h7
  have hlast : lastByte body ≠ chBackslash ↔ body.getLast? ≠ some chBackslash := by
    unfold lastByte
    cases body.getLast? with
    | none => simp; decide
    | some c => simp
  rw [← hlast]
  constructor
  · rintro ⟨tok', ts, h10, hsp, hlen⟩ hlast
    obtain ⟨ts', e, h11⟩ := lexes_total l' c' (chQuote :: (body ++ chQuote :: rest))
    have h12 := h9 _ _ _ h11
    rw [readTokens_of_lexes h12] at h10
    have h10 : ts' = tok' :: ts := List.append_cancel_left h10
    subst h10
    rcases (lexes_inv h11 : _ ∨ _) with ⟨b', r', ts2, e1, e2, e3, e4, -⟩ | ⟨r', e1, -, e3, -⟩
    · injection e4 with e4
      subst e4
      simp only at hlen
      have hle : b'.length = body.length := by omega
      injection e1 with _ e1
      have := (List.append_inj e1 hle.symm).1
      rw [← this] at e3
      exact e3 hlast
    · cases e3
  · intro hlast
    obtain ⟨ts, e, h11⟩ := lexes_total l' (c' + (body.length + 2)) rest
    have h12 := h9 _ _ _ (.quoted l' c' body rest ts e (literal_noQuote hb _) hlast h11)
    rw [readTokens_of_lexes h12]
    exact ⟨_, ts, rfl, .quoted rfl body _ rfl rfl (unescaped_unescapeQuotes body) (literal_noQuote hb _) hlast, rfl⟩

/-- The hypotheses of `C06_exact` are met behind `byte `, by a literal that ends in an escaped backslash and by one that does not. -/
example : (readTokens b!"byte ").2 = [] ∧ OpensLiteral readTokens b!"byte " ∧ LiteralBody b!"a\\\\" ∧ LiteralBody b!"\\\\a\\\"" :=
  ⟨by decide +kernel, ⟨{ v := [34, 34], l := 0, b := 5, e := 7, t := .value }, by decide +kernel, rfl⟩,
    .plain _ _ (by decide) (by decide) (.esc _ _ .nil), .esc _ _ (.plain _ _ (by decide) (by decide) (.esc _ _ .nil))⟩

example : ∃ tok ts, (readTokens (b!"byte " ++ chQuote :: (b!"\\\\a\\\"" ++ chQuote :: b!" // x"))).1 = (readTokens b!"byte ").1 ++ tok :: ts ∧
    Spelled tok (chQuote :: (b!"\\\\a\\\"" ++ [chQuote])) ∧ tok.e = tok.b + 7 :=
  (C06_exact b!"byte " b!"\\\\a\\\"" b!" // x" (by decide +kernel)
    ⟨{ v := [34, 34], l := 0, b := 5, e := 7, t := .value }, by decide +kernel, rfl⟩
    (.esc _ _ (.plain _ _ (by decide) (by decide) (.esc _ _ .nil)))).2 (by decide)

theorem noQuote_append {a b : Bytes} : ∀ {p : UInt8}, NoQuote p a → NoQuote (lastFrom p a) b → NoQuote p (a ++ b) := by
  induction a with
  | nil => exact fun _ h => h
  | cons c a ih =>
    intro p h1 h2
    cases h1 with
    | cons _ _ _ h ht =>
      rw [lastFrom_cons] at h2
      exact .cons _ _ _ h (ih ht h2)

/-- **C73, exactly.**  A `byte` line with a literal of TEAL is read as the bytes that the literal denotes unless its
body ends in a backslash; then there is no instruction, and the string is reported not to be closed. -/
theorem C73_exact (env : Env) (body bs : Bytes) (h : Denotes body bs) (hl : LiteralBody body) :
    ∃ r, process env (b!"byte " ++ 34 :: (body ++ [34]) ++ [10]) = some r ∧
      (body.getLast? ≠ some 92 → r.listing = [.byte bs] ∧ ∀ d ∈ r.diagnostics, ∀ why, d.kind ≠ .parse why) ∧
      (body.getLast? = some 92 → r.listing = [.empty] ∧
        (readTokens (b!"byte " ++ 34 :: (body ++ [34]) ++ [10])).2.map LexError.msg = [.incompleteString]) := by
  by_cases hb : body.getLast? = some 92
  · have hopen : OpensLiteral readTokens b!"byte " := ⟨{ v := [34, 34], l := 0, b := 5, e := 7, t := .value }, by decide +kernel, rfl⟩
    have hnone : (readTokens b!"byte ").2 = [] := by decide +kernel
    have hno : NoQuote chQuote (body ++ [34, 10]) := by
      refine noQuote_append (literal_noQuote hl _) ?_
      rw [lastFrom, hb]
      exact .cons _ _ _ (fun _ => rfl) (.cons _ _ _ (fun h => by cases h) (.nil _))
    have he : b!"byte " ++ 34 :: (body ++ [34]) ++ [10] = b!"byte " ++ chQuote :: (body ++ [34, 10]) := by simp [chQuote]
    have ht : tokens (b!"byte " ++ 34 :: (body ++ [34]) ++ [10]) = [{ v := b!"byte", l := 0, b := 0, e := 4, t := .value }] := by
      have := C05_tokens_before b!"byte " (body ++ [34, 10]) hnone hopen hno
      rw [tokens, he, this]
      decide +kernel
    obtain ⟨r, h1, h2, -⟩ := program_of_lines env (b!"byte " ++ 34 :: (body ++ [34]) ++ [10]) [.empty] (by rw [ht]; rfl) (by
      intro k ver o ho _
      obtain ⟨rfl, rfl⟩ : k = 0 ∧ o = .empty := by
        cases k with
        | zero => simpa [eq_comm] using ho
        | succ k => simp at ho
      rw [ht]
      rfl)
    refine ⟨r, h1, fun h => absurd hb h, fun _ => ⟨h2, ?_⟩⟩
    rcases C05_single_error (b!"byte " ++ 34 :: (body ++ [34]) ++ [10]) with h3 | ⟨l, li, h3⟩
    · rw [he] at h3
      exact absurd h3 ((C05_error_iff _).2 ⟨b!"byte ", _, rfl, hnone, hopen, hno⟩)
    · rw [h3]; rfl
  · obtain ⟨r, h1, h2⟩ := C73_string_partial env body bs h hl hb
    exact ⟨r, h1, fun _ => h2, fun h => absurd h hb⟩

/-- Both cases of `C73_exact` occur. -/
example : (Denotes b!"a\\\\" [97, 92] ∧ LiteralBody b!"a\\\\" ∧ b!"a\\\\".getLast? = some 92) ∧
    Denotes b!"\\\\a" [92, 97] ∧ LiteralBody b!"\\\\a" ∧ b!"\\\\a".getLast? ≠ some 92 :=
  ⟨⟨.plain _ _ _ (by decide) (.escape 92 92 _ _ (by simp [escapeOf]) .nil), .plain _ _ (by decide) (by decide) (.esc _ _ .nil), rfl⟩,
    .escape 92 92 _ _ (by simp [escapeOf]) (.plain _ _ _ (by decide) .nil), .esc _ _ (.plain _ _ (by decide) (by decide) .nil), by decide⟩

example : ∃ r, process sampleEnv (b!"byte " ++ 34 :: (b!"a\\\\" ++ [34]) ++ [10]) = some r ∧ r.listing = [.empty] := by
  obtain ⟨r, h1, -, h2⟩ := C73_exact sampleEnv b!"a\\\\" [97, 92] (.plain _ _ _ (by decide) (.escape 92 92 _ _ (by simp [escapeOf]) .nil))
    (.plain _ _ (by decide) (by decide) (.esc _ _ .nil))
  exact ⟨r, h1, (h2 rfl).1⟩

end Teal.Props
