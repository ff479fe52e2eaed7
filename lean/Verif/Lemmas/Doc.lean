import Verif.Model.Doc
import Verif.Spec.Doc
import Verif.Lemmas.LexesPieces

/-! `splitLines` as a structural recursion. -/

namespace Teal

open Spec

/-- Structural version of `splitLines`: `cur` is the current line so far. -/
def splitRec (cur : Bytes) : Bytes → List Bytes
  | [] => [cur]
  | [c] => if c = chCR ∨ c = chLF then [cur, []] else [cur ++ [c]]
  | c :: d :: t =>
    if c = chCR ∧ d = chLF then cur :: splitRec [] t
    else if c = chCR ∨ c = chLF then cur :: splitRec [] (d :: t)
    else splitRec (cur ++ [c]) (d :: t)

theorem getD_append_len (a : Bytes) (c : UInt8) (t : Bytes) (n : Nat) (h : n = a.length) :
    (a ++ c :: t).getD n 0 = c := by
  subst h; simp [List.getD]

theorem splitLoop_eq (fuel : Nat) : ∀ (done cur rest : Bytes) (res : List Bytes),
    rest.length < fuel →
    splitLoop (done ++ cur ++ rest) fuel done.length (done.length + cur.length) res =
      res ++ splitRec cur rest := by
  induction fuel with
  | zero => intro done cur rest res h; omega
  | succ fuel ih =>
    intro done cur rest res hf
    rw [splitLoop]
    have hcur : ((done ++ cur ++ rest).drop done.length).take (done.length + cur.length - done.length) = cur := by
      simp
    simp only [hcur]
    cases rest with
    | nil =>
      rw [if_pos (by simp)]
      cases cur with
      | nil => simp [splitRec]
      | cons a cur => simp [splitRec]
    | cons c t =>
      rw [if_neg (by simp)]
      have hc : (done ++ cur ++ c :: t).getD (done.length + cur.length) 0 = c :=
        getD_append_len _ _ _ _ (by simp)
      simp only [hc]
      have hnext : ∀ d u, t = d :: u →
          (done ++ cur ++ c :: t).getD (done.length + cur.length + 1) 0 = d := by
        rintro d u rfl
        have : done ++ cur ++ c :: d :: u = (done ++ cur ++ [c]) ++ d :: u := by simp
        rw [this]
        exact getD_append_len _ _ _ _ (by simp; omega)
      by_cases hs : c = chCR ∨ c = chLF
      · rw [if_pos hs]
        by_cases h2 : c = chCR ∧ ∃ u, t = chLF :: u
        · obtain ⟨hcr, u, rfl⟩ := h2
          subst hcr
          rw [if_pos ⟨rfl, by simp; omega, hnext _ _ rfl⟩]
          have := ih (done ++ cur ++ [chCR, chLF]) [] u (res ++ [cur]) (by simp at hf; omega)
          rw [if_pos hs]
          simp only [List.append_nil, List.length_append, List.length_cons, List.length_nil,
            Nat.add_zero, Nat.zero_add, List.append_assoc, List.cons_append, List.nil_append] at this ⊢
          rw [show done.length + cur.length + 1 + 1 = done.length + (cur.length + (1 + 1)) by omega,
            this]
          simp [splitRec]
        · have hn : ¬ (c = chCR ∧ done.length + cur.length + 1 < (done ++ cur ++ c :: t).length ∧
              (done ++ cur ++ c :: t).getD (done.length + cur.length + 1) 0 = chLF) := by
            rintro ⟨h3, h4, h5⟩
            cases t with
            | nil => simp at h4; omega
            | cons d u =>
              rw [hnext d u rfl] at h5
              exact h2 ⟨h3, u, by rw [h5]⟩
          rw [if_neg hn]
          have := ih (done ++ cur ++ [c]) [] t (res ++ [cur]) (by simp at hf; omega)
          simp only [if_pos hs]
          simp only [List.append_nil, List.length_append, List.length_cons, List.length_nil,
            Nat.add_zero, Nat.zero_add, List.append_assoc, List.cons_append, List.nil_append] at this ⊢
          rw [show done.length + cur.length + 1 = done.length + (cur.length + 1) by omega, this]
          cases t with
          | nil => simp [splitRec, hs]
          | cons d u =>
            rw [splitRec, if_neg, if_pos hs]
            rintro ⟨rfl, rfl⟩
            exact h2 ⟨rfl, u, rfl⟩
      · rw [if_neg hs]
        have hn : ¬ (c = chCR ∧ done.length + cur.length + 1 < (done ++ cur ++ c :: t).length ∧
              (done ++ cur ++ c :: t).getD (done.length + cur.length + 1) 0 = chLF) := by
          rintro ⟨h3, _⟩; exact hs (Or.inl h3)
        rw [if_neg hn]
        simp only [if_neg hs]
        have := ih done (cur ++ [c]) t res (by simp at hf; omega)
        simp only [List.length_append, List.length_cons, List.length_nil,
            Nat.zero_add, List.append_assoc, List.cons_append, List.nil_append] at this ⊢
        rw [show done.length + cur.length + 1 = done.length + (cur.length + 1) by omega, this]
        cases t with
        | nil => simp [splitRec, hs]
        | cons d u =>
          rw [splitRec, if_neg, if_neg hs]
          rintro ⟨rfl, rfl⟩
          exact hs (Or.inl rfl)

theorem splitLines_eq (s : Bytes) : splitLines s = splitRec [] s := by
  have := splitLoop_eq (s.length + 1) [] [] s [] (by omega)
  simpa [splitLines] using this

theorem splitRec_ne (cur s : Bytes) : splitRec cur s ≠ [] := by
  fun_induction splitRec cur s <;> simp_all

theorem splitRec_cur (cur s : Bytes) :
    ∃ f tl, splitRec [] s = f :: tl ∧ splitRec cur s = (cur ++ f) :: tl := by
  induction hn : s.length using Nat.strongRecOn generalizing s cur with
  | _ n ih =>
  cases s with
  | nil => exact ⟨[], [], rfl, by simp [splitRec]⟩
  | cons c t =>
    cases t with
    | nil =>
      by_cases hc : c = chCR ∨ c = chLF
      · exact ⟨[], [[]], by simp [splitRec, hc], by simp [splitRec, hc]⟩
      · exact ⟨[c], [], by simp [splitRec, hc], by simp [splitRec, hc]⟩
    | cons d t =>
      by_cases h1 : c = chCR ∧ d = chLF
      · exact ⟨[], splitRec [] t, by simp [splitRec, h1], by simp [splitRec, h1]⟩
      · by_cases h2 : c = chCR ∨ c = chLF
        · refine ⟨[], splitRec [] (d :: t), ?_, ?_⟩
          · rw [splitRec, if_neg h1, if_pos h2]
          · rw [splitRec, if_neg h1, if_pos h2]; simp
        · obtain ⟨f, tl, e1, e2⟩ := ih (d :: t).length (by simp at hn ⊢; omega) (cur ++ [c]) (d :: t) rfl
          obtain ⟨f', tl', e3, e4⟩ := ih (d :: t).length (by simp at hn ⊢; omega) [c] (d :: t) rfl
          rw [e1] at e3
          simp only [List.cons.injEq] at e3
          obtain ⟨rfl, rfl⟩ := e3
          refine ⟨c :: f, tl, ?_, ?_⟩
          · rw [splitRec, if_neg h1, if_neg h2]; exact e4
          · rw [splitRec, if_neg h1, if_neg h2, e2]; simp

/-- Splitting a concatenation that is not cut inside `\r\n`. -/
theorem splitRec_append (a b : Bytes) (h : ¬ (a.getLast? = some chCR ∧ b.head? = some chLF)) :
    ∀ cur, ∃ ini last f tl, splitRec cur a = ini ++ [last] ∧ splitRec [] b = f :: tl ∧
      splitRec cur (a ++ b) = ini ++ (last ++ f) :: tl ∧ ini.length = breaks a := by
  fun_induction breaks a with
  | case1 =>
    intro cur
    obtain ⟨f, tl, e1, e2⟩ := splitRec_cur cur b
    exact ⟨[], cur, f, tl, rfl, e1, by simpa using e2, rfl⟩
  | case2 c hc =>
    intro cur
    obtain ⟨f, tl, e1, e2⟩ := splitRec_cur [] b
    refine ⟨[cur], [], f, tl, by simp [splitRec, hc], e1, ?_, rfl⟩
    cases b with
    | nil => simp [splitRec, hc] at e1 ⊢; simpa using e1
    | cons d t =>
      rw [List.singleton_append, splitRec, if_neg, if_pos hc, e1]
      · simp
      · rintro ⟨rfl, rfl⟩; exact h ⟨rfl, rfl⟩
  | case3 c hc =>
    intro cur
    obtain ⟨f, tl, e1, e2⟩ := splitRec_cur (cur ++ [c]) b
    refine ⟨[], cur ++ [c], f, tl, by simp [splitRec, hc], e1, ?_, rfl⟩
    cases b with
    | nil => simp [splitRec, hc] at e1 ⊢; simpa using e1
    | cons d t =>
      rw [List.singleton_append, splitRec, if_neg, if_neg hc, e2]
      · simp
      · rintro ⟨rfl, rfl⟩; exact hc (Or.inl rfl)
  | case4 c d t hcd ih =>
    intro cur
    obtain ⟨rfl, rfl⟩ := hcd
    obtain ⟨ini, last, f, tl, e1, e2, e3, e4⟩ := ih (by
      rintro ⟨h1, h2⟩
      refine h ⟨?_, h2⟩
      cases t with
      | nil => simp at h1
      | cons x t => simpa using h1) []
    refine ⟨cur :: ini, last, f, tl, ?_, e2, ?_, by simp [e4]⟩
    · rw [splitRec, if_pos ⟨rfl, rfl⟩, e1]; rfl
    · rw [List.cons_append, List.cons_append, splitRec, if_pos ⟨rfl, rfl⟩, e3]; rfl
  | case5 c d t h1 h2 ih =>
    intro cur
    obtain ⟨ini, last, f, tl, e1, e2, e3, e4⟩ := ih (by
      rintro ⟨h1, h2⟩
      exact h ⟨by simpa using h1, h2⟩) []
    refine ⟨cur :: ini, last, f, tl, ?_, e2, ?_, by simp [e4]⟩
    · rw [splitRec, if_neg h1, if_pos h2, e1]; rfl
    · rw [List.cons_append, List.cons_append, splitRec, if_neg h1, if_pos h2, ← List.cons_append, e3]; rfl
  | case6 c d t h1 h2 ih =>
    intro cur
    obtain ⟨ini, last, f, tl, e1, e2, e3, e4⟩ := ih (by
      rintro ⟨h1, h2⟩
      exact h ⟨by simpa using h1, h2⟩) (cur ++ [c])
    refine ⟨ini, last, f, tl, ?_, e2, ?_, e4⟩
    · rw [splitRec, if_neg h1, if_neg h2, e1]
    · rw [List.cons_append, List.cons_append, splitRec, if_neg h1, if_neg h2, ← List.cons_append, e3]

theorem splitRec_nobreak (s : Bytes) (h : ∀ x ∈ s, ¬ Break x) (cur : Bytes) :
    splitRec cur s = [cur ++ s] := by
  fun_induction splitRec cur s with
  | case1 => simp
  | case2 cur c hc => exact absurd hc (h c (by simp))
  | case3 => rfl
  | case4 cur c d t hcd ih => exact absurd (Or.inl hcd.1) (h c (by simp))
  | case5 cur c d t h1 h2 ih => exact absurd h2 (h c (by simp))
  | case6 cur c d t h1 h2 ih =>
    rw [ih (fun x hx => h x (by simp at hx ⊢; exact Or.inr hx))]; simp

/-- The last line of a text has the text's column as its length. -/
theorem splitRec_last (s : Bytes) (cur : Bytes) (hcur : ∀ x ∈ cur, ¬ Break x) :
    ∃ ini last, splitRec cur s = ini ++ [last] ∧
      last.length = column (cur ++ s) ∧ ini.length = breaks s := by
  fun_induction splitRec cur s with
  | case1 cur =>
    refine ⟨[], cur, rfl, ?_, rfl⟩
    have := column_append [] cur hcur
    simpa [column] using this.symm
  | case2 cur c hc =>
    refine ⟨[cur], [], rfl, ?_, by simp [breaks, hc]⟩
    have := column_break cur [] c hc
    simpa using this.symm
  | case3 cur c hc =>
    refine ⟨[], cur ++ [c], rfl, ?_, by simp [breaks, hc]⟩
    have := column_append [] (cur ++ [c]) (by
      intro x hx
      rcases List.mem_append.1 hx with hx | hx
      · exact hcur x hx
      · simp at hx; subst hx; exact hc)
    simpa [column] using this.symm
  | case4 cur c d t hcd ih =>
    obtain ⟨ini, last, e1, e2, e3⟩ := ih (by simp)
    obtain ⟨rfl, rfl⟩ := hcd
    refine ⟨cur :: ini, last, by rw [e1]; rfl, ?_, by simp [breaks, e3]⟩
    rw [e2]
    clear e1 e2 e3 ih
    unfold column
    simp only [List.nil_append, List.reverse_append, List.reverse_cons, List.append_assoc]
    rw [List.takeWhile_append]
    split
    · rename_i h
      rw [List.length_append, List.singleton_append, List.takeWhile_cons_of_neg (by decide), h]
      rfl
    · rfl
  | case5 cur c d t h1 h2 ih =>
    obtain ⟨ini, last, e1, e2, e3⟩ := ih (by simp)
    refine ⟨cur :: ini, last, by rw [e1]; rfl, ?_, by rw [breaks, if_neg h1, if_pos h2]; simp [e3]⟩
    rw [e2]
    clear e1 e2 e3 ih
    unfold column
    have : (cur ++ c :: d :: t) = cur ++ [c] ++ (d :: t) := by simp
    rw [this]
    simp only [List.nil_append, List.reverse_append (as := cur ++ [c])]
    rw [List.takeWhile_append]
    split
    · rename_i h
      rw [h]
      rw [List.reverse_append, List.reverse_singleton, List.singleton_append, List.takeWhile_cons_of_neg]
      · simp
      · rcases h2 with rfl | rfl <;> decide
    · rfl
  | case6 cur c d t h1 h2 ih =>
    obtain ⟨ini, last, e1, e2, e3⟩ := ih (by
      intro x hx
      rcases List.mem_append.1 hx with hx | hx
      · exact hcur x hx
      · simp at hx; subst hx; exact h2)
    refine ⟨ini, last, e1, ?_, by rw [breaks, if_neg h1, if_neg h2]; exact e3⟩
    rw [e2]; simp

end Teal
