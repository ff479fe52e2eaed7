import Verif.Lemmas.Edit

/-! The tokens of a text are at positions of the text. -/

namespace Teal.Lsp

open Teal Teal.Spec Teal.Lsp.Spec

theorem here_both {l c : Nat} {pre raw rest : Bytes} (hl : l = breaks pre) (hc : c = column pre)
    (hpre : ¬ (pre.getLast? = some chCR ∧ (raw ++ rest).head? = some chLF)) (hne : raw ≠ []) (hb : ∀ x ∈ raw, ¬ Break x) :
    At (pre ++ (raw ++ rest)) l c pre.length ∧ At (pre ++ (raw ++ rest)) l (c + raw.length) (pre.length + raw.length) := by
  refine ⟨at_here hl hc hpre, ?_⟩
  rw [← List.append_assoc, ← List.length_append]
  refine at_here (by rw [breaks_snoc_nobreak _ _ hb, hl]) (by rw [column_append _ _ hb, hc]) ?_
  rintro ⟨h1, _⟩
  rw [getLast?_append_ne _ _ hne] at h1
  exact hb chCR (List.mem_of_getLast? h1) (Or.inl rfl)

theorem lexes_at {l c : Nat} {s : Bytes} {ts : List Token} {err : Option (Nat × Nat)} (h : Lexes l c s ts err) :
    ∀ pre : Bytes, ¬ (pre.getLast? = some chCR ∧ s.head? = some chLF) → l = breaks pre → c = column pre →
      (∀ t ∈ ts, t.t = .value → ∀ x ∈ t.v, ¬ Break x) →
      ∀ t ∈ ts, t.t ≠ .eol → ∃ o n : Nat, t.e = t.b + n ∧ At (pre ++ s) t.l t.b o ∧ At (pre ++ s) t.l t.e (o + n) := by
  induction h with
  | done l c => intro pre _ _ _ _ t ht; cases ht
  | blank l c x rest ts err hx h ih =>
    intro pre hs hl hc hone
    have hxb : ¬ Break x := by rcases hx with rfl | rfl <;> decide
    have hx1 : ∀ y ∈ [x], ¬ Break y := by simpa using hxb
    have := ih (pre ++ [x]) (by
      rintro ⟨h1, _⟩
      simp only [List.getLast?_append, List.getLast?_singleton, Option.some_or, Option.some.injEq] at h1
      exact hxb (Or.inl h1)) (by rw [breaks_snoc_nobreak _ _ hx1, hl]) (by rw [column_append _ _ hx1, hc]; rfl) hone
    simpa only [List.append_assoc, List.singleton_append] using this
  | eol l c raw rest ts err hraw h ih =>
    intro pre hpre hl hc hone
    have hnext : l + 1 = breaks (pre ++ raw) ∧ 0 = column (pre ++ raw) := by
      subst hl; subst hc
      rw [breaks_append]
      · rcases hraw with rfl | rfl | ⟨rfl, _⟩
        · exact ⟨rfl, (column_break pre [] chLF (Or.inr rfl) |> fun h => by simpa using h.symm)⟩
        · exact ⟨rfl, (column_break pre [chCR] chLF (Or.inr rfl) |> fun h => by simpa using h.symm)⟩
        · exact ⟨rfl, (column_break pre [] chCR (Or.inl rfl) |> fun h => by simpa using h.symm)⟩
      · rintro ⟨h1, h2⟩
        apply hpre
        refine ⟨h1, ?_⟩
        rcases hraw with rfl | rfl | ⟨rfl, _⟩
        · rfl
        · simp [chCR, chLF] at h2
        · simp [chCR, chLF] at h2
    have := ih (pre ++ raw) (by
      rintro ⟨h1, h2⟩
      rcases hraw with rfl | rfl | ⟨rfl, h3⟩
      · simp [chCR, chLF] at h1
      · simp [chCR, chLF] at h1
      · exact h3 h2) hnext.1 hnext.2 (fun t ht => hone t (by simp [ht]))
    rw [List.append_assoc] at this
    intro t ht hne
    rcases List.mem_cons.1 ht with rfl | ht
    · exact absurd rfl hne
    · exact this t ht hne
  | comment l c v rest ts err hv hrest h ih =>
    intro pre hpre hl hc hone
    have hvb : ∀ x ∈ chSlash :: chSlash :: v, ¬ Break x := by
      intro x hx
      simp only [List.mem_cons] at hx
      rcases hx with rfl | rfl | hx
      · decide
      · decide
      · exact hv x hx
    have := ih (pre ++ (chSlash :: chSlash :: v)) (by
      rintro ⟨h1, _⟩
      rw [getLast?_append_ne _ _ (by simp)] at h1
      exact hvb chCR (List.mem_of_getLast? h1) (Or.inl rfl)) (by rw [breaks_snoc_nobreak _ _ hvb, hl])
      (by rw [column_append _ _ hvb, hc]; rfl) (fun t ht => hone t (by simp [ht]))
    rw [List.append_assoc] at this
    intro t ht hne
    rcases List.mem_cons.1 ht with rfl | ht
    · obtain ⟨h1, h2⟩ := here_both (rest := rest) hl hc hpre (by simp) hvb
      exact ⟨_, _, rfl, h1, h2⟩
    · exact this t ht hne
  | bare l c v rest ts err hne' hq hsl hv hrest h ih =>
    intro pre hpre hl hc hone
    have hvb : ∀ x ∈ v, ¬ Break x := fun x hx hb => hv x hx (Or.inr hb)
    have := ih (pre ++ v) (by
      rintro ⟨h1, _⟩
      rw [getLast?_append_ne _ _ hne'] at h1
      exact hvb chCR (List.mem_of_getLast? h1) (Or.inl rfl)) (by rw [breaks_snoc_nobreak _ _ hvb, hl])
      (by rw [column_append _ _ hvb, hc]) (fun t ht => hone t (by simp [ht]))
    rw [List.append_assoc] at this
    intro t ht hne
    rcases List.mem_cons.1 ht with rfl | ht
    · obtain ⟨h1, h2⟩ := here_both (rest := rest) hl hc hpre hne' hvb
      exact ⟨_, _, rfl, h1, h2⟩
    · exact this t ht hne
  | quoted l c body rest ts err hb hlast h ih =>
    intro pre hpre hl hc hone
    have hvb : ∀ x ∈ (chQuote :: (body ++ [chQuote])), ¬ Break x := by
      intro x hx hbr
      simp only [List.mem_cons, List.mem_append, List.not_mem_nil, or_false] at hx
      rcases hx with rfl | hx | rfl
      · revert hbr; decide
      · refine hone _ List.mem_cons_self rfl x ?_ hbr
        simp [break_unescape hx hbr]
      · revert hbr; decide
    have hshape : chQuote :: (body ++ chQuote :: rest) = (chQuote :: (body ++ [chQuote])) ++ rest := by simp
    have hlen : (chQuote :: (body ++ [chQuote])).length = body.length + 2 := by simp
    have := ih (pre ++ (chQuote :: (body ++ [chQuote]))) (by
      rintro ⟨h1, _⟩
      rw [getLast?_append_ne _ _ (by simp), ← List.cons_append, List.getLast?_append] at h1
      simp [chCR, chQuote] at h1) (by rw [breaks_snoc_nobreak _ _ hvb, hl])
      (by rw [column_append _ _ hvb, hc]; simp) (fun t ht => hone t (by simp [ht]))
    rw [List.append_assoc] at this
    intro t ht hne
    rw [hshape] at hpre ⊢
    rcases List.mem_cons.1 ht with rfl | ht
    · obtain ⟨h1, h2⟩ := here_both (rest := rest) hl hc hpre (by simp) hvb
      rw [hlen] at h2
      exact ⟨_, _, rfl, h1, h2⟩
    · exact this t ht hne
  | unterminated l c rest hn => intro pre _ _ _ _ t ht; cases ht

end Teal.Lsp
