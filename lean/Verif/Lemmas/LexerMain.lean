import Verif.Lemmas.LexerGrammar

/-! The token loop against the grammar; the grammar is deterministic and compositional. -/

namespace Teal

open Spec

/-- The diagnostics that go with an error position. -/
def errDiag : Option (Nat × Nat) → List LexError
  | none => []
  | some (l, li) => [{ l := l, li := li, msg := .incompleteString }]

theorem curr_last (z : Lexer) (ts : List Token) (tok : Token) (h : z.ts = ts ++ [tok])
    (ht : z.tsi = ts.length) : z.curr = tok := by
  unfold Lexer.curr
  rw [if_neg (by rw [h, ht]; simp), h, ht]
  simp

theorem loop_lexes (fuel : Nat) : ∀ (z : Lexer) (acc : List Token), z.Good →
    (z.ts.length = z.tsi ∨ z.ts.length = z.tsi + 1) → z.rest.length < fuel →
    ∃ toks err, Lexes z.l (z.i - z.lb) z.rest toks err ∧
      (readTokensLoop fuel z acc).2 = acc ++ toks ∧
      (readTokensLoop fuel z acc).1.diag = z.diag ++ errDiag err := by
  induction fuel with
  | zero => intro z acc _ _ h; omega
  | succ fuel ih =>
    intro z acc hg hts hf
    rw [readTokensLoop]
    -- after the index update, the token index is at the end
    obtain ⟨z1, hz1, e1, e2, e3, e4, e5, e6, e7⟩ : ∃ z1 : Lexer,
        (if z.ts.length > z.tsi then { z with tsi := z.tsi + 1 } else z) = z1 ∧
        z1.ts.length = z1.tsi ∧ z1.ts = z.ts ∧ z1.diag = z.diag ∧ z1.Good ∧
        z1.rest = z.rest ∧ z1.l = z.l ∧ z1.i - z1.lb = z.i - z.lb := by
      refine ⟨_, rfl, ?_⟩
      split
      · exact ⟨by simp; omega, rfl, rfl, ⟨hg.hp, hg.hlb, hg.hi, hg.hli⟩, rfl, rfl, rfl⟩
      · exact ⟨by omega, rfl, rfl, hg, rfl, rfl, rfl⟩
    have hscan : z.scan = (z1.read, decide (z1.read.ts.length > z1.read.tsi)) := by
      unfold Lexer.scan
      simp only [hz1, e1, if_true]
    rw [hscan]
    simp only []
    rw [← e5, ← e6, ← e7, ← e3]
    rw [← e5] at hf
    unfold Lexer.read
    by_cases he : z1.i = z1.source.length
    · rw [if_pos he]
      have hnil := (Lexer.rest_nil_iff z1 e4.hi).2 he
      refine ⟨[], none, by rw [hnil]; exact .done _ _, ?_, ?_⟩
      · rw [if_neg (by simp; omega)]; simp
      · rw [if_neg (by simp; omega)]; simp [errDiag]
    · rw [if_neg he]
      have hrl := e4.rest_len
      have hrpos : 0 < z1.rest.length := by have := e4.hi; omega
      cases Lexer.readTokens_step z1 e4 with
      | fin hts' hd hi htsi hl =>
        refine ⟨[], none, hl, ?_, ?_⟩
        all_goals
          by_cases hok : z1.readTokens.tsi < z1.readTokens.ts.length
          · exfalso
            rw [hts', htsi] at hok; omega
          · rw [if_neg (by simpa using hok)]; simp [hd, errDiag]
      | tok tok hts' hd hs htsi hg' hlt hl =>
        have hcl := ih z1.readTokens (acc ++ [z1.readTokens.curr]) hg'
          (Or.inr (by rw [hts', htsi]; simp; omega))
          (by have := hg'.rest_len; rw [hs] at this; omega)
        obtain ⟨toks, err, h1, h2, h3⟩ := hcl
        have hcur : z1.readTokens.curr = tok := curr_last _ z1.ts tok hts' (by rw [htsi]; omega)
        refine ⟨tok :: toks, err, hl _ _ h1, ?_, ?_⟩
        · rw [if_pos (by rw [hts', htsi]; simp; omega), h2, hcur]; simp
        · rw [if_pos (by rw [hts', htsi]; simp; omega), h3, hd]
      | err hts' hi htsi pos hd hl =>
        refine ⟨[], some pos, hl, ?_, ?_⟩
        all_goals
          by_cases hok : z1.readTokens.tsi < z1.readTokens.ts.length
          · exfalso
            rw [hts', htsi] at hok; omega
          · rw [if_neg (by simpa using hok)]; simp [hd, errDiag]

end Teal
