import Verif.Lemmas.Actions
import Verif.Lemmas.LexesCompose

/-! # Cutting a text at the beginning of a line -/

namespace Teal.Lsp

open Teal Teal.Spec Teal.Lsp.Spec Teal.Props

/-- `a` ends a line, and `b` does not begin inside its line break. -/
def EndsLine (a b : Bytes) : Prop := ∃ a' x, a = a' ++ [x] ∧ Break x ∧ ¬ (x = chCR ∧ b.head? = some chLF)

theorem EndsLine.ne {a b : Bytes} (h : EndsLine a b) : a ≠ [] := by
  obtain ⟨a', x, rfl, -⟩ := h; simp

theorem EndsLine.tail {raw a b : Bytes} (h : EndsLine (raw ++ a) b) (hne : a ≠ []) : EndsLine a b := by
  obtain ⟨a', x, he, hx, hs⟩ := h
  refine ⟨a.dropLast, x, ?_, hx, hs⟩
  have h1 := congrArg List.getLast? he
  rw [getLast?_append_ne _ _ hne, List.getLast?_concat] at h1
  obtain ⟨ys, rfl⟩ := List.getLast?_eq_some_iff.1 h1
  rw [List.dropLast_concat]

theorem EndsLine.split {a b : Bytes} (h : EndsLine a b) : ¬ (a.getLast? = some chCR ∧ b.head? = some chLF) := by
  obtain ⟨a', x, rfl, hx, hs⟩ := h
  rintro ⟨h1, h2⟩
  rw [List.getLast?_concat] at h1
  exact hs ⟨Option.some.inj h1, h2⟩

/-- A line break is not inside a piece without line breaks. -/
theorem cut_over {raw rest a b : Bytes} (he : raw ++ rest = a ++ b) (ha : EndsLine a b) (hraw : ∀ x ∈ raw, ¬ Break x) :
    ∃ a2, a = raw ++ a2 ∧ rest = a2 ++ b ∧ a2 ≠ [] ∧ breaks a = breaks a2 := by
  have key : ∀ m, raw = a ++ m → False := by
    rintro m rfl
    obtain ⟨a', x, rfl, hx, -⟩ := ha
    exact hraw x (by simp) hx
  rcases List.append_eq_append_iff.1 he with ⟨m, rfl, hm⟩ | ⟨m, hm, -⟩
  · have hne : m ≠ [] := by
      rintro rfl
      exact key [] (by simp)
    refine ⟨m, rfl, hm, hne, ?_⟩
    rw [breaks_append, breaks_nobreak _ hraw, Nat.zero_add]
    rintro ⟨h1, -⟩
    exact hraw chCR (List.mem_of_getLast? h1) (.inl rfl)
  · exact (key m hm).elim

theorem atEndOr_cut {P : UInt8 → Prop} {a b b' : Bytes} (h : AtEndOr P (a ++ b)) (hne : a ≠ []) : AtEndOr P (a ++ b') := by
  cases a with
  | nil => exact absurd rfl hne
  | cons x a =>
    rcases h with h | ⟨y, t, h1, h2⟩
    · cases h
    · rw [List.cons_append, List.cons.injEq] at h1
      exact .inr ⟨x, a ++ b', rfl, h1.1 ▸ h2⟩

theorem breaks_raw {raw rest : Bytes} (hraw : raw = [chLF] ∨ raw = [chCR, chLF] ∨ (raw = [chCR] ∧ rest.head? ≠ some chLF)) : breaks raw = 1 := by
  rcases hraw with rfl | rfl | ⟨rfl, -⟩ <;> decide

/-- Cutting a text behind a line break: what is read before the cut does not depend on the rest. -/
theorem lexes_split {l c : Nat} {s : Bytes} {ts : List Token} {err : Option (Nat × Nat)} (h : Lexes l c s ts err) : ∀ (a b : Bytes), s = a ++ b →
    EndsLine a b → (∀ t ∈ ts, t.t = .value → ∀ x ∈ t.v, ¬ Break x) → err = none →
    ∃ ts1 ts2, ts = ts1 ++ ts2 ∧ Lexes l c a ts1 none ∧ Lexes (l + breaks a) 0 b ts2 none ∧
      ∀ b' ts' err', EndsLine a b' → Lexes (l + breaks a) 0 b' ts' err' → Lexes l c (a ++ b') (ts1 ++ ts') err' := by
  induction h with
  | done l c =>
    intro a b he ha
    exact absurd (List.append_eq_nil_iff.1 he.symm).1 ha.ne
  | blank l c x rest ts err hx h ih =>
    intro a b he ha ht herr
    have hraw : ∀ y ∈ [x], ¬ Break y := by
      intro y hy; rw [List.mem_singleton.1 hy]
      rintro hb
      rcases hx with rfl | rfl <;> rcases hb with hb | hb <;> revert hb <;> decide
    obtain ⟨a2, rfl, h2, hne, hbr⟩ := cut_over (raw := [x]) he ha hraw
    obtain ⟨ts1, ts2, h3, h4, h5, h6⟩ := ih a2 b h2 (ha.tail hne) ht herr
    rw [hbr]
    refine ⟨ts1, ts2, h3, .blank _ _ _ _ _ _ hx h4, h5, fun b' ts' err' hb' hl => .blank _ _ _ _ _ _ hx (h6 b' ts' err' (hb'.tail hne) hl)⟩
  | eol l c raw rest ts err hraw h ih =>
    intro a b he ha ht herr
    subst herr
    by_cases hle : a.length ≤ raw.length
    · have hra : raw = a ∧ rest = b := by
        refine List.append_inj he ?_
        rcases hraw with rfl | rfl | ⟨rfl, -⟩
        · have := List.length_pos_iff.2 ha.ne
          simp at hle ⊢; omega
        · obtain ⟨a', x, rfl, hx, hs⟩ := ha
          cases a' with
          | nil =>
            simp only [List.nil_append, List.cons_append, List.cons.injEq] at he
            exact absurd ⟨he.1.symm, by rw [← he.2]; rfl⟩ hs
          | cons y a' => simp at hle ⊢; omega
        · have := List.length_pos_iff.2 ha.ne
          simp at hle ⊢; omega
      obtain ⟨rfl, rfl⟩ := hra
      rw [breaks_raw hraw]
      refine ⟨[_], ts, rfl, ?_, h, ?_⟩
      · have := Lexes.eol l c raw [] [] none (by rcases hraw with h | h | ⟨h, -⟩ <;> simp [h]) (.done _ _)
        simpa using this
      · intro b' ts' err' hb' hl
        refine .eol _ _ _ _ _ _ ?_ hl
        rcases hraw with h | h | ⟨h, -⟩
        · exact .inl h
        · exact .inr (.inl h)
        · refine .inr (.inr ⟨h, fun hh => hb'.split ⟨by rw [h]; rfl, hh⟩⟩)
    · rcases List.append_eq_append_iff.1 he with ⟨m, rfl, hm⟩ | ⟨m, hm, -⟩
      swap
      · rw [hm] at hle; simp at hle
      have hne : m ≠ [] := by rintro rfl; simp at hle
      obtain ⟨ts1, ts2, h3, h4, h5, h6⟩ := ih m b hm (ha.tail hne) (fun t h => ht t (by simp [h])) rfl
      have hm0 : ∀ b', (m ++ b').head? = rest.head? := by
        intro b'
        rw [hm]
        cases m with | nil => exact absurd rfl hne | cons => rfl
      have hraw' : ∀ b', raw = [chLF] ∨ raw = [chCR, chLF] ∨ (raw = [chCR] ∧ (m ++ b').head? ≠ some chLF) := by
        intro b'; rw [hm0]; exact hraw
      have hbr : breaks (raw ++ m) = breaks m + 1 := by
        rw [breaks_append, breaks_raw hraw, Nat.add_comm]
        rintro ⟨h1, h2⟩
        rcases hraw with rfl | rfl | ⟨rfl, hh⟩
        · revert h1; decide
        · revert h1; decide
        · refine hh ?_
          rw [← hm0 [], List.append_nil]; exact h2
      rw [hbr, show l + (breaks m + 1) = l + 1 + breaks m by omega]
      refine ⟨_ :: ts1, ts2, by rw [h3]; rfl, ?_, h5, ?_⟩
      · exact .eol _ _ _ _ _ _ (by have := hraw' []; rwa [List.append_nil] at this) h4
      · intro b' ts' err' hb' hl
        rw [List.append_assoc]
        exact .eol _ _ _ _ _ _ (hraw' b') (h6 b' ts' err' (EndsLine.tail (raw := raw) hb' hne) hl)
  | comment l c v rest ts err hv hrest h ih =>
    intro a b he ha ht herr
    have hraw : ∀ y ∈ chSlash :: chSlash :: v, ¬ Break y := by
      intro y hy
      simp only [List.mem_cons] at hy
      rcases hy with rfl | rfl | hy
      · rintro (h | h) <;> revert h <;> decide
      · rintro (h | h) <;> revert h <;> decide
      · exact hv y hy
    obtain ⟨a2, rfl, h2, hne, hbr⟩ := cut_over (raw := chSlash :: chSlash :: v) he ha hraw
    obtain ⟨ts1, ts2, h3, h4, h5, h6⟩ := ih a2 b h2 (ha.tail hne) (fun t h => ht t (by simp [h])) herr
    rw [hbr]
    rw [h2] at hrest
    refine ⟨_ :: ts1, ts2, by rw [h3]; rfl, ?_, h5, ?_⟩
    · have := atEndOr_cut (b' := []) hrest hne
      rw [List.append_nil] at this
      exact .comment _ _ _ _ _ _ hv this h4
    · intro b' ts' err' hb' hl
      have := Lexes.comment l c v (a2 ++ b') _ err' hv (atEndOr_cut hrest hne) (h6 b' ts' err' (hb'.tail hne) hl)
      simpa using this
  | bare l c v rest ts err hne' hq hsl hv hrest h ih =>
    intro a b he ha ht herr
    have hraw : ∀ y ∈ v, ¬ Break y := fun y hy hb => hv y hy (.inr hb)
    obtain ⟨a2, rfl, h2, hne, hbr⟩ := cut_over (raw := v) he ha hraw
    obtain ⟨ts1, ts2, h3, h4, h5, h6⟩ := ih a2 b h2 (ha.tail hne) (fun t h => ht t (by simp [h])) herr
    rw [hbr]
    rw [h2] at hrest
    refine ⟨_ :: ts1, ts2, by rw [h3]; rfl, ?_, h5, ?_⟩
    · have := atEndOr_cut (b' := []) hrest hne
      rw [List.append_nil] at this
      exact .bare _ _ _ _ _ _ hne' hq hsl hv this h4
    · intro b' ts' err' hb' hl
      have := Lexes.bare l c v (a2 ++ b') _ err' hne' hq hsl hv (atEndOr_cut hrest hne) (h6 b' ts' err' (hb'.tail hne) hl)
      simpa using this
  | quoted l c body rest ts err hbody hlast h ih =>
    intro a b he ha ht herr
    have hraw : ∀ y ∈ chQuote :: (body ++ [chQuote]), ¬ Break y := by
      intro y hy hb
      simp only [List.mem_cons, List.mem_append, List.not_mem_nil, or_false] at hy
      have hq : ¬ Break chQuote := by rintro (h | h) <;> revert h <;> decide
      rcases hy with rfl | hy | rfl
      · exact hq hb
      · exact ht _ List.mem_cons_self rfl y (List.mem_cons_of_mem _ (List.mem_append_left _ (break_unescape hy hb))) hb
      · exact hq hb
    obtain ⟨a2, rfl, h2, hne, hbr⟩ := cut_over (raw := chQuote :: (body ++ [chQuote])) (rest := rest) (by rw [← he]; simp) ha hraw
    obtain ⟨ts1, ts2, h3, h4, h5, h6⟩ := ih a2 b h2 (ha.tail hne) (fun t h => ht t (by simp [h])) herr
    rw [hbr]
    refine ⟨_ :: ts1, ts2, by rw [h3]; rfl, ?_, h5, ?_⟩
    · have := Lexes.quoted l c body a2 _ _ hbody hlast h4
      simpa using this
    · intro b' ts' err' hb' hl
      have := Lexes.quoted l c body (a2 ++ b') _ err' hbody hlast (h6 b' ts' err' (hb'.tail hne) hl)
      simpa using this
  | unterminated l c rest h => intro a b he ha ht herr; cases herr

/-! ## The start of a line -/

theorem first_line (b : Bytes) (h : 1 ≤ breaks b) : ∃ m b', b = m ++ b' ∧ breaks m = 1 ∧ EndsLine m b' := by
  fun_induction breaks b with
  | case1 => cases h
  | case2 c hc => exact ⟨[c], [], rfl, by simp [breaks, hc], [], c, rfl, hc, by simp⟩
  | case3 c hc => cases h
  | case4 c d t hcd ih =>
    obtain ⟨rfl, rfl⟩ := hcd
    exact ⟨[chCR, chLF], t, rfl, by decide, [chCR], chLF, rfl, .inr rfl, by rintro ⟨h, -⟩; revert h; decide⟩
  | case5 c d t h1 h2 ih =>
    refine ⟨[c], d :: t, rfl, by simp [breaks, h2], [], c, rfl, h2, ?_⟩
    rintro ⟨rfl, h⟩
    exact h1 ⟨rfl, Option.some.inj h⟩
  | case6 c d t h1 h2 ih =>
    obtain ⟨m, b', h3, h4, a', x, rfl, hx, hs⟩ := ih h
    refine ⟨c :: (a' ++ [x]), b', by rw [h3]; rfl, ?_, c :: a', x, rfl, hx, hs⟩
    rw [← h4, ← List.singleton_append (l := a' ++ [x]), breaks_append, breaks_nobreak [c], Nat.zero_add]
    · intro y hy; rw [List.mem_singleton.1 hy]; exact h2
    · rintro ⟨h, -⟩
      exact h2 (.inl (Option.some.inj h))

/-- What is before the start of a line. -/
def Before (a b : Bytes) : Prop := a = [] ∨ EndsLine a b

theorem Before.split {a b : Bytes} (h : Before a b) : ¬ (a.getLast? = some chCR ∧ b.head? = some chLF) := by
  rcases h with rfl | h
  · rintro ⟨h, -⟩; cases h
  · exact h.split

theorem Before.column {a b : Bytes} (h : Before a b) : column a = 0 := by
  rcases h with rfl | ⟨a', x, rfl, hx, -⟩
  · rfl
  · unfold Spec.column
    have : (!(x == chCR || x == chLF)) = false := by rcases hx with rfl | rfl <;> decide
    rw [List.reverse_append, List.reverse_singleton, List.singleton_append, List.takeWhile_cons, this]
    rfl

theorem before_of {a b : Bytes} (hc : column a = 0) (hs : ¬ (a.getLast? = some chCR ∧ b.head? = some chLF)) : Before a b := by
  rcases List.eq_nil_or_concat a with rfl | ⟨a', x, rfl⟩
  · exact .inl rfl
  · refine .inr ⟨a', x, by simp, ?_, ?_⟩
    · refine Classical.byContradiction fun hx => ?_
      have := column_append a' [x] (by intro y hy; rw [List.mem_singleton.1 hy]; exact hx)
      rw [List.concat_eq_append, this] at hc
      simp at hc
    · rintro ⟨rfl, h⟩
      exact hs ⟨by simp, h⟩

theorem line_start (src : Bytes) : ∀ k, k ≤ breaks src → ∃ a b, src = a ++ b ∧ breaks a = k ∧ Before a b := by
  intro k
  induction k with
  | zero => intro _; exact ⟨[], src, rfl, rfl, .inl rfl⟩
  | succ k ih =>
    intro hk
    obtain ⟨a, b, rfl, hb, hB⟩ := ih (by omega)
    rw [breaks_append _ _ hB.split] at hk
    obtain ⟨m, b', rfl, hm, he⟩ := first_line b (by omega)
    refine ⟨a ++ m, b', by simp, ?_, .inr ?_⟩
    · rw [breaks_append, hb, hm]
      rintro ⟨h1, h2⟩
      refine hB.split ⟨h1, ?_⟩
      rw [List.head?_append, h2]; rfl
    · obtain ⟨a', x, rfl, hx, hs⟩ := he
      exact ⟨a ++ a', x, by simp, hx, hs⟩

/-! ## The tokens of whole lines -/

theorem EndsLine.alone {a b : Bytes} (h : EndsLine a b) : EndsLine a [] := by
  obtain ⟨a', x, rfl, hx, -⟩ := h
  exact ⟨a', x, rfl, hx, by simp⟩

/-- The tokens of lines that end with a line break. -/
theorem lexes_upto {l c : Nat} {a : Bytes} {ts : List Token} {err : Option (Nat × Nat)} (h : Lexes l c a ts err) : EndsLine a [] →
    (∀ t ∈ ts, t.t = .value → ∀ x ∈ t.v, ¬ Break x) → err = none →
    (∀ t ∈ ts, t.l < l + breaks a) ∧ ∃ t, ts.getLast? = some t ∧ t.l + 1 = l + breaks a := by
  have step : ∀ {l n n' : Nat} {t : Token} {ts : List Token}, n = n' → t.l = l → Seq l ts → ((∀ t ∈ ts, t.l < l + n') ∧ ∃ t, ts.getLast? = some t ∧ t.l + 1 = l + n') →
      ((∀ s ∈ t :: ts, s.l < l + n) ∧ ∃ s, (t :: ts).getLast? = some s ∧ s.l + 1 = l + n) := by
    rintro l n n' t ts rfl hl hsq ⟨h1, s, h2, h3⟩
    refine ⟨?_, s, ?_, h3⟩
    · intro t' ht'
      rcases List.mem_cons.1 ht' with rfl | ht'
      · have := h1 s (List.mem_of_getLast? h2)
        have := hsq.line_ge s (List.mem_of_getLast? h2)
        omega
      · exact h1 t' ht'
    · cases ts with
      | nil => cases h2
      | cons u ts => rw [List.getLast?_cons_cons]; exact h2
  induction h with
  | done l c => intro ha; exact absurd rfl ha.ne
  | blank l c x rest ts err hx h ih =>
    intro ha ht herr
    have hraw : ∀ y ∈ [x], ¬ Break y := by
      intro y hy; rw [List.mem_singleton.1 hy]
      rintro hb
      rcases hx with rfl | rfl <;> rcases hb with hb | hb <;> revert hb <;> decide
    obtain ⟨a2, he, h2, hne, hbr⟩ := cut_over (raw := [x]) (rest := rest) (b := []) (by simp) ha hraw
    rw [List.append_nil] at h2
    subst h2
    rw [hbr]
    exact ih (EndsLine.tail (raw := [x]) ha hne) ht herr
  | eol l c raw rest ts err hraw h ih =>
    intro ha ht herr
    have hbr := breaks_eol_append raw rest hraw
    by_cases hr : rest = []
    · subst hr
      subst herr
      obtain ⟨rfl, -⟩ := lexes_det h (.done _ _)
      rw [hbr]
      exact ⟨by simp [breaks], _, rfl, by simp [breaks]⟩
    · obtain ⟨h1, s, h2, h3⟩ := ih (EndsLine.tail (raw := raw) ha hr) (fun t h => ht t (by simp [h])) herr
      rw [hbr]
      refine ⟨?_, s, ?_, by omega⟩
      · intro t' ht'
        rcases List.mem_cons.1 ht' with rfl | ht'
        · dsimp only; omega
        · have := h1 t' ht'; omega
      · cases ts with
        | nil => cases h2
        | cons u ts => rw [List.getLast?_cons_cons]; exact h2
  | comment l c v rest ts err hv hrest h ih =>
    intro ha ht herr
    have hraw : ∀ y ∈ chSlash :: chSlash :: v, ¬ Break y := by
      intro y hy
      simp only [List.mem_cons] at hy
      rcases hy with rfl | rfl | hy
      · rintro (h | h) <;> revert h <;> decide
      · rintro (h | h) <;> revert h <;> decide
      · exact hv y hy
    obtain ⟨a2, he, h2, hne, hbr⟩ := cut_over (raw := chSlash :: chSlash :: v) (rest := rest) (b := []) (by simp) ha hraw
    rw [List.append_nil] at h2
    subst h2
    exact step hbr rfl (seq_of_lexes h) (ih (EndsLine.tail (raw := chSlash :: chSlash :: v) ha hne) (fun t h => ht t (by simp [h])) herr)
  | bare l c v rest ts err hne' hq hsl hv hrest h ih =>
    intro ha ht herr
    have hraw : ∀ y ∈ v, ¬ Break y := fun y hy hb => hv y hy (.inr hb)
    obtain ⟨a2, he, h2, hne, hbr⟩ := cut_over (raw := v) (rest := rest) (b := []) (by simp) ha hraw
    rw [List.append_nil] at h2
    subst h2
    exact step hbr rfl (seq_of_lexes h) (ih (EndsLine.tail (raw := v) ha hne) (fun t h => ht t (by simp [h])) herr)
  | quoted l c body rest ts err hbody hlast h ih =>
    intro ha ht herr
    have hraw : ∀ y ∈ chQuote :: (body ++ [chQuote]), ¬ Break y := by
      intro y hy hb
      simp only [List.mem_cons, List.mem_append, List.not_mem_nil, or_false] at hy
      have hq : ¬ Break chQuote := by rintro (h | h) <;> revert h <;> decide
      rcases hy with rfl | hy | rfl
      · exact hq hb
      · exact ht _ List.mem_cons_self rfl y (List.mem_cons_of_mem _ (List.mem_append_left _ (break_unescape hy hb))) hb
      · exact hq hb
    obtain ⟨a2, he, h2, hne, hbr⟩ := cut_over (raw := chQuote :: (body ++ [chQuote])) (rest := rest) (b := []) (by simp) ha hraw
    rw [List.append_nil] at h2
    subst h2
    have ha' : EndsLine ((chQuote :: (body ++ [chQuote])) ++ rest) [] := by simpa using ha
    exact step hbr rfl (seq_of_lexes h) (ih (ha'.tail hne) (fun t h => ht t (by simp [h])) herr)
  | unterminated l c rest h => intro _ _ herr; cases herr

/-- A text, cut into the lines before line `k`, line `k`, and the lines behind it. -/
structure Cuts (src : Bytes) (k : Nat) (p m b : Bytes) (T1 Tm Tb : List Token) : Prop where
  text : src = p ++ (m ++ b)
  tokens : (readTokens src).1 = T1 ++ (Tm ++ Tb)
  before : Before p (m ++ b)
  lines : breaks p = k
  start : Place src k 0 p.length
  stop : Place src (k + 1) 0 (p ++ m).length
  t1 : ∀ t ∈ T1, t.l < k
  tm : ∀ t ∈ Tm, t.l = k
  tb : ∀ t ∈ Tb, k < t.l
  count : lineCount T1 = k
  lex : Lexes (k + 1) 0 b Tb none
  put : ∀ b' ts' err', Before p b' → Lexes k 0 b' ts' err' → Lexes 0 0 (p ++ b') (T1 ++ ts') err'
  next : b ≠ [] → EndsLine m b
  mid : Lexes k 0 m Tm none

theorem cuts (src : Bytes) (k : Nat) (hk : k ≤ breaks src) (he : (readTokens src).2 = [])
    (hone : ∀ t ∈ (readTokens src).1, t.t = .value → ∀ x ∈ t.v, ¬ Break x) : ∃ p m b T1 Tm Tb, Cuts src k p m b T1 Tm Tb := by
  obtain ⟨err, hl, herr⟩ := readTokens_lexes src
  have hn : err = none := by
    cases err with
    | none => rfl
    | some x => rw [he] at herr; simp [errDiag] at herr
  subst hn
  obtain ⟨p, q, hsrc, hp, hB⟩ := line_start src k hk
  have hplace : Place src k 0 p.length := .there _ (by rw [hsrc]; exact at_here hp.symm hB.column.symm hB.split)
  obtain ⟨T1, T2, hT, hq, hput, hT1, hcount⟩ : ∃ T1 T2, (readTokens src).1 = T1 ++ T2 ∧ Lexes k 0 q T2 none ∧
      (∀ b' ts' err', Before p b' → Lexes k 0 b' ts' err' → Lexes 0 0 (p ++ b') (T1 ++ ts') err') ∧ (∀ t ∈ T1, t.l < k) ∧ lineCount T1 = k := by
    rcases hB with rfl | hE
    · have hk0 : k = 0 := by rw [← hp]; rfl
      subst hk0
      refine ⟨[], _, rfl, ?_, fun b' ts' err' _ h => h, by simp, rfl⟩
      rw [List.nil_append] at hsrc
      rw [← hsrc]; exact hl
    · obtain ⟨T1, T2, h1, h2, h3, h4⟩ := lexes_split hl p q hsrc hE hone rfl
      rw [hp, Nat.zero_add] at h3 h4
      have hone1 : ∀ t ∈ T1, t.t = .value → ∀ x ∈ t.v, ¬ Break x := fun t ht => hone t (by rw [h1]; exact List.mem_append_left _ ht)
      obtain ⟨h5, t, h6, h7⟩ := lexes_upto h2 hE.alone hone1 rfl
      rw [hp, Nat.zero_add] at h5 h7
      refine ⟨T1, T2, h1, h3, ?_, h5, by rw [lineCount, h6]; exact h7⟩
      intro b' ts' err' hB' h
      rcases hB' with rfl | hB'
      · exact absurd rfl hE.ne
      · exact h4 b' ts' err' hB' h
  have hone2 : ∀ t ∈ T2, t.t = .value → ∀ x ∈ t.v, ¬ Break x := fun t ht => hone t (by rw [hT]; exact List.mem_append_right _ ht)
  by_cases hbr : 1 ≤ breaks q
  · obtain ⟨m, b, rfl, hm, hE⟩ := first_line q hbr
    obtain ⟨Tm, Tb, h1, h2, h3, h4⟩ := lexes_split hq m b rfl hE hone2 rfl
    rw [hm] at h3 h4
    have honem : ∀ t ∈ Tm, t.t = .value → ∀ x ∈ t.v, ¬ Break x := fun t ht => hone2 t (by rw [h1]; exact List.mem_append_left _ ht)
    obtain ⟨h5, -⟩ := lexes_upto h2 hE.alone honem rfl
    rw [hm] at h5
    have hhead : ¬ (p.getLast? = some chCR ∧ m.head? = some chLF) := by
      rintro ⟨h6, h7⟩
      exact hB.split ⟨h6, by rw [List.head?_append, h7]; rfl⟩
    have hE' : EndsLine (p ++ m) b := by
      obtain ⟨a', x, rfl, hx, hs⟩ := hE
      exact ⟨p ++ a', x, by simp, hx, hs⟩
    refine ⟨p, m, b, T1, Tm, Tb, hsrc, by rw [hT, h1], hB, hp, hplace, ?_, hT1, ?_, ?_, hcount, h3, hput, fun _ => hE, h2⟩
    · refine .there _ ?_
      rw [hsrc, ← List.append_assoc]
      refine at_here ?_ ?_ hE'.split
      · rw [breaks_append _ _ hhead, hm, hp]
      · exact (Before.column (.inr hE')).symm
    · intro t ht
      have := (seq_of_lexes h2).line_ge t ht
      have := h5 t ht
      omega
    · intro t ht
      have := (seq_of_lexes h3).line_ge t ht
      omega
  · have h0 : breaks q = 0 := by omega
    refine ⟨p, q, [], T1, T2, [], by simpa using hsrc, by simpa using hT, by simpa using hB, hp, hplace, ?_, hT1, ?_, by simp, hcount, .done _ _, hput, by simp, hq⟩
    · rw [← hsrc]
      refine .textEnd ?_
      rw [hsrc, breaks_append _ _ hB.split, hp, h0]
      omega
    · exact fun t ht => (lexes_no_eol hq (breaks_zero h0) t ht).2

/-- The lines of a text are at most as many as its line breaks and one. -/
theorem lineCount_breaks (src : Bytes) : lineCount (readTokens src).1 ≤ breaks src + 1 := by
  obtain ⟨err, h, -⟩ := readTokens_lexes src
  rw [lineCount]
  cases hl : (readTokens src).1.getLast? with
  | none => simp
  | some t =>
    have := ((lexes_lines h).1 t (List.mem_of_getLast? hl)).2.1
    simp
    omega

theorem words_append (a b : List Token) (j : Nat) : words (a ++ b) j = words a j ++ words b j := List.filter_append ..

theorem words_nil {a : List Token} {j : Nat} (h : ∀ t ∈ a, t.l ≠ j) : words a j = [] := by
  refine List.filter_eq_nil_iff.2 fun t ht => ?_
  simp [h t ht]

theorem lineCount_append {a b : List Token} (h : b ≠ []) : lineCount (a ++ b) = lineCount b := by
  obtain ⟨b', x, rfl⟩ := (List.eq_nil_or_concat b).resolve_left h
  simp [lineCount, ← List.append_assoc]

theorem words_moveDown (ts : List Token) (n j : Nat) : words (ts.map (moveDown n)) (j + n) = (words ts j).map (moveDown n) := by
  unfold words
  rw [List.filter_map]
  congr 1
  refine List.filter_congr fun t _ => ?_
  rw [Bool.eq_iff_iff]
  simp [moveDown]
  exact fun _ => ⟨of_decide_eq_true, decide_eq_true⟩

theorem lineCount_moveDown (ts : List Token) (n : Nat) (h : ts ≠ []) : lineCount (ts.map (moveDown n)) = lineCount ts + n := by
  obtain ⟨b', x, rfl⟩ := (List.eq_nil_or_concat ts).resolve_left h
  simp [lineCount, moveDown]
  omega

/-- Every carriage return of the text is followed by a line feed. -/
theorem before_cut {src p m b : Bytes} {k : Nat} {T1 Tm Tb : List Token} (hc : Cuts src k p m b T1 Tm Tb) (hcr : CrLf src) : Before p b := by
  rcases hc.before with h | ⟨a', x, rfl, hx, hs⟩
  · exact .inl h
  · refine .inr ⟨a', x, rfl, hx, ?_⟩
    rintro ⟨rfl, -⟩
    have h1 := hc.text
    have h2 := hcr a'.length (by rw [h1]; simp)
    refine hs ⟨rfl, ?_⟩
    rw [h1, List.getElem?_append_right (by simp)] at h2
    simp only [List.length_append, List.length_singleton, Nat.sub_self] at h2
    rw [List.head?_eq_getElem?]; exact h2

/-- Removing line `k`: the tokens of the lines behind it move up. -/
theorem cut_line {src p m b : Bytes} {k : Nat} {T1 Tm Tb : List Token} (hc : Cuts src k p m b T1 Tm Tb) (hcr : CrLf src)
    (hlc : k < lineCount (readTokens src).1) :
    lineCount (readTokens src).1 = lineCount (readTokens (p ++ b)).1 + 1 ∧
    (∀ j, j < k → words (readTokens (p ++ b)).1 j = words (readTokens src).1 j) ∧
    (∀ j, k ≤ j → (words (readTokens (p ++ b)).1 j).map Token.v = (words (readTokens src).1 (j + 1)).map Token.v) := by
  obtain ⟨ts0, err0, h0⟩ : ∃ ts0 err0, Lexes 0 0 b ts0 err0 := ⟨_, _, (readTokens_lexes b).choose_spec.1⟩
  have hk := lexes_shift h0 k
  have hk1 := lexes_shift h0 (k + 1)
  rw [Nat.zero_add] at hk hk1
  obtain ⟨hTb, herr⟩ := lexes_det hc.lex hk1
  have hT := readTokens_of_lexes (hc.put b _ _ (before_cut hc hcr) hk)
  have hT1 := hc.t1
  have hTm := hc.tm
  rw [hc.tokens] at hlc ⊢
  rw [hT]
  dsimp only
  subst hTb
  refine ⟨?_, ?_, ?_⟩
  · by_cases h : ts0 = []
    · subst h
      simp only [List.map_nil, List.append_nil] at hlc ⊢
      rw [hc.count]
      by_cases h2 : Tm = []
      · subst h2
        rw [List.append_nil, hc.count] at hlc
        omega
      · rw [lineCount_append h2]
        obtain ⟨b', x, rfl⟩ := (List.eq_nil_or_concat Tm).resolve_left h2
        have := hTm x (by simp)
        simp [lineCount, this]
    · have h' : ∀ n, ts0.map (moveDown n) ≠ [] := by intro n; simpa using h
      rw [lineCount_append (by simp [h]), lineCount_append (h' _), lineCount_append (h' _), lineCount_moveDown _ _ h, lineCount_moveDown _ _ h]
      omega
  · intro j hj
    rw [words_append, words_append, words_append, words_nil (a := Tm), words_nil (a := ts0.map _), words_nil (a := ts0.map _)]
    · rfl
    · intro t ht
      have := hc.tb t ht; omega
    · intro t ht
      obtain ⟨t0, -, rfl⟩ := List.mem_map.1 ht
      simp only [moveDown]; omega
    · intro t ht
      have := hTm t ht; omega
  · intro j hj
    obtain ⟨i, rfl⟩ := Nat.exists_eq_add_of_le' hj
    rw [words_append, words_append, words_append, words_nil (a := Tm), words_nil (a := T1), words_nil (a := T1), words_moveDown, Nat.add_assoc, words_moveDown]
    · simp [moveDown]
    · intro t ht
      have := hT1 t ht; omega
    · intro t ht
      have := hT1 t ht; omega
    · intro t ht
      have := hTm t ht; omega

/-- The version on the lines of a text without line `k`. -/
theorem version_cut {ts us : List Token} {k : Nat} (h1 : ∀ j, j < k → words us j = words ts j)
    (h2 : ∀ j, k ≤ j → (words us j).map Token.v = (words ts (j + 1)).map Token.v) (hn : ∀ v, ¬ SetsVersion ((words ts k).map Token.v) v) {j v : Nat}
    (h : VersionAt us j v) : (j ≤ k → VersionAt ts j v) ∧ (k ≤ j → VersionAt ts (j + 1) v) := by
  have lift : ∀ {j v : Nat}, (j ≤ k → VersionAt ts j v) → (k < j → VersionAt ts (j + 1) v) → (j ≤ k → VersionAt ts j v) ∧ (k ≤ j → VersionAt ts (j + 1) v) := by
    intro j v ha hb
    refine ⟨ha, fun hj => ?_⟩
    by_cases he : j = k
    · subst he; exact .keep _ _ (ha (Nat.le_refl _)) hn
    · exact hb (by omega)
  induction h with
  | first => exact lift (fun _ => .first) (fun h => absurd h (by omega))
  | set j n h =>
    refine lift (fun hj => ?_) (fun hj => ?_)
    · exact .set j n (by rw [← h1 j (by omega)]; exact h)
    · exact .set (j + 1) n (by rw [← h2 j (by omega)]; exact h)
  | keep j v _ hno ih =>
    refine lift (fun hj => ?_) (fun hj => ?_)
    · exact .keep j v (ih.1 (by omega)) (by rw [← h1 j (by omega)]; exact hno)
    · exact .keep (j + 1) v (ih.2 (by omega)) (by rw [← h2 j (by omega)]; exact hno)

/-- The program without line `k`. -/
theorem program_cut {env : Env} {src p m b : Bytes} {k : Nat} {T1 Tm Tb : List Token} {r : ProcessResult} (hr : process env src = some r)
    (hs : NoSurplus r) (hc : Cuts src k p m b T1 Tm Tb) (hcr : CrLf src) (hk : k < r.listing.length)
    (hn : ∀ v, ¬ SetsVersion ((words (tokens src) k).map Token.v) v) :
    ∃ r', process env (p ++ b) = some r' ∧ r'.listing = r.listing.eraseIdx k ∧ r'.version = r.version ∧ NoSurplus r' := by
  obtain ⟨hlen, hver, huniq, hl⟩ := listing_ops hr hs
  obtain ⟨g1, g2, g3⟩ := cut_line hc hcr (by rw [← show r.listing.length = _ from hlen]; exact hk)
  have g4 : r.listing.length = lineCount (tokens (p ++ b)) + 1 := by rw [hlen]; exact g1
  obtain ⟨r', q1, q2, q3, q4, -⟩ := program_of_lines env (p ++ b) (r.listing.eraseIdx k) (by rw [List.length_eraseIdx_of_lt hk]; omega) (by
    intro j ver o ho hv
    obtain ⟨v1, v2⟩ := version_cut g2 g3 hn hv
    rw [List.getElem?_eraseIdx] at ho
    split at ho
    · rw [show words (tokens (p ++ b)) j = _ from g2 j (by omega)]
      exact hl j ver o ho (v1 (by omega))
    · rw [show (words (tokens (p ++ b)) j).map Token.v = _ from g3 j (by omega)]
      exact hl (j + 1) ver o ho (v2 (by omega)))
  refine ⟨r', q1, q2, ?_, q3⟩
  have := (version_cut g2 g3 hn q4).2 (by rw [List.length_eraseIdx_of_lt hk]; omega)
  rw [List.length_eraseIdx_of_lt hk] at this
  exact huniq _ _ (Nat.le_of_eq hlen) (by convert this using 1; omega) _ hver

/-! ## Lines at the end -/

/-- Lines added behind the lines of a text. -/
theorem program_more {env : Env} {src src' : Bytes} {r : ProcessResult} (hr : process env src = some r) (hs : NoSurplus r) (X : List Token)
    (more : List Op) (ht : tokens src' = tokens src ++ X) (hlc : lineCount (tokens src') = r.listing.length + more.length)
    (hX : ∀ t ∈ X, t.t = .value → r.listing.length ≤ t.l)
    (hops : ∀ (j ver : Nat) (o : Op), more[j]? = some o → opsOf env.addrOk ver ((words X (r.listing.length + j)).map Token.v) = [o])
    (hn : ∀ j v, ¬ SetsVersion ((words X j).map Token.v) v) :
    ∃ r', process env src' = some r' ∧ r'.listing = r.listing ++ more ∧ r'.version = r.version ∧ NoSurplus r' := by
  obtain ⟨hlen, hver, huniq, hl⟩ := listing_ops hr hs
  have w1 : ∀ j, j < r.listing.length → words (tokens src') j = words (tokens src) j := by
    intro j hj
    rw [ht, words_append, show words X j = [] from List.filter_eq_nil_iff.2 ?_, List.append_nil]
    intro t htX
    simp only [Bool.and_eq_true, decide_eq_true_eq, not_and]
    intro h1 h2
    have := hX t htX h2
    omega
  have w2 : ∀ j, r.listing.length ≤ j → words (tokens src') j = words X j := by
    intro j hj
    have : words (tokens src) j = [] := by
      refine Classical.byContradiction fun h => ?_
      have := words_lt h
      omega
    rw [ht, words_append, this, List.nil_append]
  have hv : ∀ {j v : Nat}, VersionAt (tokens src') j v → (j ≤ r.listing.length → VersionAt (tokens src) j v) ∧
      (r.listing.length ≤ j → VersionAt (tokens src) r.listing.length v) := by
    intro j v h
    have fix : ∀ {j v : Nat}, (j ≤ r.listing.length → VersionAt (tokens src) j v) → (r.listing.length < j → VersionAt (tokens src) r.listing.length v) →
        (j ≤ r.listing.length → VersionAt (tokens src) j v) ∧ (r.listing.length ≤ j → VersionAt (tokens src) r.listing.length v) := by
      intro j v ha hb
      refine ⟨ha, fun hj => ?_⟩
      by_cases he : j = r.listing.length
      · rw [← he]; exact ha (by omega)
      · exact hb (by omega)
    induction h with
    | first => exact fix (fun _ => .first) (fun h => by omega)
    | set j n h =>
      refine fix (fun hj => .set j n (by rw [← w1 j (by omega)]; exact h)) (fun hj => ?_)
      rw [w2 j (by omega)] at h
      exact absurd h (hn j n)
    | keep j v _ hno ih =>
      refine fix (fun hj => .keep j v (ih.1 (by omega)) (by rw [← w1 j (by omega)]; exact hno)) (fun hj => ih.2 (by omega))
  obtain ⟨r', q1, q2, q3, q4, -⟩ := program_of_lines env src' (r.listing ++ more) (by rw [hlc, List.length_append]) (by
    intro j ver o ho hver'
    by_cases hj : j < r.listing.length
    · rw [List.getElem?_append_left hj] at ho
      rw [w1 j hj]
      exact hl j ver o ho ((hv hver').1 (by omega))
    · rw [List.getElem?_append_right (by omega)] at ho
      rw [w2 j (by omega)]
      have := hops (j - r.listing.length) ver o ho
      rwa [Nat.add_sub_cancel' (by omega)] at this)
  refine ⟨r', q1, q2, ?_, q3⟩
  exact huniq _ _ (Nat.le_of_eq hlen) ((hv q4).2 (by simp)) _ hver

theorem lexes_blanks {s : Bytes} (h : ∀ x ∈ s, Blank x) : ∀ l c, Lexes l c s [] none := by
  induction s with
  | nil => intro l c; exact .done _ _
  | cons x s ih => intro l c; exact .blank _ _ _ _ _ _ (h x (by simp)) (ih (fun y hy => h y (by simp [hy])) _ _)

theorem blanks_lexes {l c : Nat} {s : Bytes} {ts : List Token} {err : Option (Nat × Nat)} (h : Lexes l c s ts err) : ts = [] → err = none → ∀ x ∈ s, Blank x := by
  induction h with
  | done => simp
  | blank l c x rest ts err hx h ih =>
    intro h1 h2 y hy
    rcases List.mem_cons.1 hy with rfl | hy
    · exact hx
    · exact ih h1 h2 y hy
  | eol => intro h; cases h
  | comment => intro h; cases h
  | bare => intro h; cases h
  | quoted => intro h; cases h
  | unterminated => intro _ h; cases h

/-- A line with a label. -/
theorem lexes_label {n : Bytes} (hn : PlainWord n) (l : Nat) {rest : Bytes} (hb : ∀ x ∈ rest, Blank x) : ∃ b e b' e',
    Lexes l 0 (n ++ ([chColon, chCR, chLF] ++ rest)) [⟨n ++ [chColon], l, b, e, .value⟩, ⟨[chCR, chLF], l, b', e', .eol⟩] none := by
  obtain ⟨h1, h2, h3, h4⟩ := hn
  refine ⟨0, 0 + (n ++ [chColon]).length, 0 + (n ++ [chColon]).length, 0 + (n ++ [chColon]).length + 2, ?_⟩
  have := Lexes.bare l 0 (n ++ [chColon]) ([chCR, chLF] ++ rest) _ none (by simp) ?_ ?_ ?_ (.inr ⟨chCR, chLF :: rest, rfl, .inr (.inl rfl)⟩)
    (.eol _ _ _ _ _ _ (.inr (.inl rfl)) (lexes_blanks hb _ _))
  · simpa using this
  · cases n with
    | nil => exact absurd rfl h1
    | cons x n => exact h2
  · cases n with
    | nil => exact absurd rfl h1
    | cons x n =>
      cases n with
      | nil => simp [chColon, chSlash]
      | cons y n => exact h3
  · intro x hx
    rcases List.mem_append.1 hx with hx | hx
    · exact h4 x hx
    · rw [List.mem_singleton.1 hx]; decide

theorem lines_length {env : Env} {src : Bytes} {r : ProcessResult} (h : process env src = some r) : r.lines.length = lineCount (tokens src) := by
  unfold process at h
  dsimp only at h
  cases hp : processLines env.addrOk {} (sourceLines (readTokens src).1) with
  | none => rw [hp] at h; cases h
  | some os =>
    rw [hp] at h
    dsimp only at h
    unfold assemble at h
    dsimp only at h
    obtain ⟨_, _, rfl⟩ := Option.map_eq_some_iff.1 h
    exact linesOf_length src

theorem seq_lt_count {l : Nat} {ts : List Token} (h : Seq l ts) : ∀ t ∈ ts, t.l < lineCount ts := by
  have step : ∀ {l m : Nat} {x : Token} {ts : List Token}, l ≤ m → Seq m ts → x.l = l → (∀ t ∈ ts, t.l < lineCount ts) →
      ∀ t ∈ x :: ts, t.l < lineCount (x :: ts) := by
    intro l m x ts hlm hs hx ih t ht
    rw [lineCount_cons]
    split
    · rename_i he
      subst he
      rw [List.mem_singleton.1 ht]; omega
    · rename_i hne
      rcases List.mem_cons.1 ht with rfl | ht
      · have := hs.lineCount_ge hne; omega
      · exact ih t ht
  induction h with
  | nil => simp
  | eol l x ts hl hx hb h ih => exact step (Nat.le_succ _) h hl ih
  | comment l x ts hl hx hb hn h ih => exact step (Nat.le_refl _) h hl ih
  | value l x ts hl hx hb hn h ih => exact step (Nat.le_refl _) h hl ih

theorem line_lt_count (src : Bytes) : ∀ t ∈ tokens src, t.l < lineCount (tokens src) := seq_lt_count (readTokens_seq src)

/-- The text after the edit that creates a label. -/
theorem create_label {src : Bytes} (n : Bytes) (hn : PlainWord n) (he : (readTokens src).2 = []) (hone : OneLine (tokens src)) :
    ∃ src' X, Applied src ⟨⟨⟨lineCount (tokens src), 0⟩, ⟨lineCount (tokens src), ([chCR, chLF] ++ (n ++ [chColon, chCR, chLF])).length⟩⟩,
      [chCR, chLF] ++ (n ++ [chColon, chCR, chLF])⟩ src' ∧ tokens src' = tokens src ++ X ∧
      ∃ (d : Nat) (b e : Nat), d ≤ 1 ∧ lineCount (tokens src') = lineCount (tokens src) + d + 1 ∧
        X.filter (fun t => decide (t.t = .value)) = [⟨n ++ [chColon], lineCount (tokens src) + d, b, e, .value⟩] := by
  have hle : lineCount (tokens src) ≤ breaks src + 1 := lineCount_le src
  have hlt := line_lt_count src
  generalize hK : lineCount (tokens src) = K at hle hlt ⊢
  have hnb : ∀ x, Blank x → ¬ Break x := by
    rintro x (rfl | rfl) <;> decide
  by_cases hk : K ≤ breaks src
  · obtain ⟨p, m, b, T1, Tm, Tb, hc⟩ := cuts src K hk he hone
    have hTm : Tm = [] := by
      rcases hTm' : Tm with _ | ⟨t, _⟩
      · rfl
      · have h1 := hc.tm t (by rw [hTm']; simp)
        have h2 := hlt t (by unfold tokens; rw [hc.tokens, hTm']; simp)
        omega
    have hTb : Tb = [] := by
      rcases hTb' : Tb with _ | ⟨t, _⟩
      · rfl
      · have h1 := hc.tb t (by rw [hTb']; simp)
        have h2 := hlt t (by unfold tokens; rw [hc.tokens, hTb']; simp)
        omega
    subst hTm hTb
    have hbm := blanks_lexes hc.mid rfl rfl
    have hb0 : b = [] := by
      refine Classical.byContradiction fun h => ?_
      obtain ⟨a', x, h1, h2, -⟩ := hc.next h
      exact hnb x (hbm x (by rw [h1]; simp)) h2
    subst hb0
    have htext := hc.text
    have htok : tokens src = T1 := by unfold tokens; rw [hc.tokens]; simp
    rw [List.append_nil] at htext
    have hsplit : Before p m := by have := hc.before; rwa [List.append_nil] at this
    have hpl := hc.lines
    obtain ⟨c1, c2, c3, c4, hlex⟩ := lexes_label hn (K + 1) (rest := m.drop ([chCR, chLF] ++ (n ++ [chColon, chCR, chLF])).length)
      (fun x hx => hbm x (List.mem_of_mem_drop hx))
    have hB : Before p ([chCR, chLF] ++ (n ++ ([chColon, chCR, chLF] ++ m.drop ([chCR, chLF] ++ (n ++ [chColon, chCR, chLF])).length))) := by
      rcases hsplit with h | ⟨a', x, h1, h2, -⟩
      · exact .inl h
      · refine .inr ⟨a', x, h1, h2, ?_⟩
        rintro ⟨-, h⟩
        simp [chCR, chLF] at h
    have hput := hc.put _ _ _ hB (Lexes.eol K 0 [chCR, chLF] _ _ _ (.inr (.inl rfl)) hlex)
    have htok' := readTokens_of_lexes hput
    refine ⟨_, _, ⟨K, 0, K, _, p.length,
      p.length + min m.length ([chCR, chLF] ++ (n ++ [chColon, chCR, chLF])).length, rfl, hc.start, ?_, by omega, ?_⟩,
      (congrArg Prod.fst htok').trans (by rw [← htok]), 1, c1, c2, Nat.le_refl _, ?_, rfl⟩
    · generalize ([chCR, chLF] ++ (n ++ [chColon, chCR, chLF])).length = L
      by_cases hlen : L ≤ m.length
      · rw [Nat.min_eq_right hlen]
        refine .there _ ⟨p ++ m.take L, m.drop L, ?_, ?_, ?_, ?_, ?_⟩
        · rw [htext, List.append_assoc, List.take_append_drop]
        · rw [List.length_append, List.length_take, Nat.min_eq_left hlen]
        · rw [breaks_append, breaks_nobreak (m.take _), hpl, Nat.add_zero]
          · exact fun x hx => hnb x (hbm x (List.mem_of_mem_take hx))
          · rintro ⟨-, h⟩
            exact hnb chLF (hbm _ (List.mem_of_mem_take (List.mem_of_mem_head? h))) (.inr rfl)
        · rw [column_append, hsplit.column, List.length_take, Nat.min_eq_left hlen, Nat.zero_add]
          exact fun x hx => hnb x (hbm x (List.mem_of_mem_take hx))
        · rintro ⟨-, h⟩
          exact hnb chLF (hbm _ (List.mem_of_mem_drop (List.mem_of_mem_head? h))) (.inr rfl)
      · rw [Nat.min_eq_left (by omega)]
        refine .lineEnd m.length _ ?_ (by omega) ?_
        · have hcol : column (p ++ m) = m.length := by
            rw [column_append _ _ (fun x hx => hnb x (hbm x hx)), hsplit.column, Nat.zero_add]
          refine ⟨p ++ m, [], by simpa using htext, by simp, ?_, hcol, by simp⟩
          rw [breaks_append _ _ hsplit.split, breaks_nobreak m (fun x hx => hnb x (hbm x hx)), hpl, Nat.add_zero]
        · intro x hx
          rw [List.getElem?_eq_none (by rw [htext, List.length_append]; omega)] at hx
          cases hx
    · rw [htext, List.take_left, List.drop_length_add_append]
      have : m.drop (min m.length ([chCR, chLF] ++ (n ++ [chColon, chCR, chLF])).length) = m.drop ([chCR, chLF] ++ (n ++ [chColon, chCR, chLF])).length := by
        rcases Nat.le_total ([chCR, chLF] ++ (n ++ [chColon, chCR, chLF])).length m.length with h | h
        · rw [Nat.min_eq_right h]
        · rw [Nat.min_eq_left h, List.drop_of_length_le h, List.drop_of_length_le (Nat.le_refl _)]
      rw [this]
      simp
    · rw [show tokens _ = _ from congrArg Prod.fst htok', lineCount_append (by simp)]
      rfl
  · have hk1 : K = breaks src + 1 := by omega
    obtain ⟨p, m, b, T1, Tm, Tb, hc⟩ := cuts src (breaks src) (Nat.le_refl _) he hone
    have htext := hc.text
    have hbr : breaks (m ++ b) = 0 := by
      have h1 := breaks_append p (m ++ b) hc.before.split
      rw [← htext, hc.lines] at h1
      omega
    have hnob := breaks_zero hbr
    have hb0 : b = [] := by
      refine Classical.byContradiction fun h => ?_
      obtain ⟨a', x, h1, h2, -⟩ := hc.next h
      exact hnob x (by rw [h1]; simp) h2
    subst hb0
    obtain ⟨hTb, -⟩ := lexes_det hc.lex (.done _ _)
    subst hTb
    rw [List.append_nil] at htext hnob
    have htok : tokens src = T1 ++ Tm := by unfold tokens; rw [hc.tokens]; simp
    have hm0 : eolCount Tm = 0 := by
      unfold eolCount
      rw [List.length_eq_zero_iff, List.filter_eq_nil_iff]
      intro t ht
      simpa using (lexes_no_eol hc.mid hnob t ht).1
    have hmne : m ≠ [] := by
      rintro rfl
      obtain ⟨rfl, -⟩ := lexes_det hc.mid (.done _ _)
      rw [htok, List.append_nil, hc.count] at hK
      omega
    have hsplit : Before p m := by have := hc.before; rwa [List.append_nil] at this
    obtain ⟨c1, c2, c3, c4, hlex⟩ := lexes_label hn K (rest := []) (by simp)
    obtain ⟨col, hline⟩ := lexes_append_break hc.mid [chCR, chLF] (n ++ [chColon, chCR, chLF]) _ none (.inr (.inl rfl))
      (by rw [hm0, Nat.add_zero, ← hk1]; simpa using hlex) rfl
    have hB : Before p (m ++ ([chCR, chLF] ++ (n ++ [chColon, chCR, chLF]))) := by
      rcases hsplit with h | ⟨a', x, h1, h2, h3⟩
      · exact .inl h
      · refine .inr ⟨a', x, h1, h2, ?_⟩
        rintro ⟨h4, h5⟩
        refine h3 ⟨h4, ?_⟩
        cases m with
        | nil => exact absurd rfl hmne
        | cons y m => exact h5
    have htok' := readTokens_of_lexes (hc.put _ _ _ hB hline)
    refine ⟨_, _, ⟨K, 0, K, _, src.length, src.length, rfl, .textEnd (by omega), .textEnd (by omega), Nat.le_refl _, ?_⟩,
      (congrArg Prod.fst htok').trans (by rw [htok, List.append_assoc]), 0, c1, c2, Nat.zero_le _, ?_, rfl⟩
    · rw [List.take_length, List.drop_length, htext]
      simp
    · rw [show tokens _ = _ from congrArg Prod.fst htok', ← List.append_assoc, lineCount_append (by simp)]
      rfl

end Teal.Lsp
