import Verif.Lemmas.LexesDet

/-! Decomposition of a text into spelled tokens, and positions. -/

namespace Teal

open Spec

theorem unescaped_unescapeQuotes (s : Bytes) : Unescaped s (unescapeQuotes s) := by
  fun_induction unescapeQuotes s with
  | case1 => exact .nil
  | case2 c => exact .keep _ _ _ (by simp) .nil
  | case3 c d t h ih => obtain ⟨rfl, rfl⟩ := h; exact .esc _ _ ih
  | case4 c d t h ih => exact .keep _ _ _ (by simpa using h) ih

theorem getLast?_append_ne (a b : Bytes) (h : b ≠ []) : (a ++ b).getLast? = b.getLast? := by
  rw [List.getLast?_append]
  cases hb : b.getLast? with
  | none => exact absurd (List.getLast?_eq_none_iff.1 hb) h
  | some x => rfl

theorem breaks_append (a b : Bytes) (h : ¬ (a.getLast? = some chCR ∧ b.head? = some chLF)) :
    breaks (a ++ b) = breaks a + breaks b := by
  fun_induction breaks a with
  | case1 => simp
  | case2 c hc =>
    cases b with
    | nil => simp [breaks, hc]
    | cons d t =>
      rw [List.singleton_append, breaks, if_neg, if_pos hc]
      · omega
      · rintro ⟨rfl, rfl⟩; exact h ⟨rfl, rfl⟩
  | case3 c hc =>
    cases b with
    | nil => simp [breaks, hc]
    | cons d t =>
      rw [List.singleton_append, breaks, if_neg, if_neg hc]
      · omega
      · rintro ⟨rfl, rfl⟩; exact hc (Or.inl rfl)
  | case4 c d t hcd ih =>
    obtain ⟨rfl, rfl⟩ := hcd
    rw [List.cons_append, List.cons_append, breaks, if_pos ⟨rfl, rfl⟩, ih, Nat.add_right_comm]
    rintro ⟨h1, h2⟩
    apply h
    refine ⟨?_, h2⟩
    cases t with
    | nil => simp at h1
    | cons x t => simpa using h1
  | case5 c d t h1 h2 ih =>
    rw [List.cons_append, List.cons_append, breaks, if_neg h1, if_pos h2, ← List.cons_append, ih,
      Nat.add_right_comm]
    rintro ⟨h1, h2⟩
    exact h ⟨by simpa using h1, h2⟩
  | case6 c d t h1 h2 ih =>
    rw [List.cons_append, List.cons_append, breaks, if_neg h1, if_neg h2, ← List.cons_append, ih]
    rintro ⟨h1, h2⟩
    exact h ⟨by simpa using h1, h2⟩

theorem breaks_nobreak (s : Bytes) (h : ∀ x ∈ s, ¬ Break x) : breaks s = 0 := by
  fun_induction breaks s with
  | case1 => rfl
  | case2 c hc => exact absurd hc (h c (by simp))
  | case3 => rfl
  | case4 c d t hcd ih => exact absurd (Or.inl hcd.1) (h c (by simp))
  | case5 c d t h1 h2 ih => exact absurd h2 (h c (by simp))
  | case6 c d t h1 h2 ih => exact ih (fun x hx => h x (by simp at hx ⊢; exact Or.inr hx))

theorem breaks_snoc_nobreak (pre s : Bytes) (h : ∀ x ∈ s, ¬ Break x) :
    breaks (pre ++ s) = breaks pre := by
  rw [breaks_append, breaks_nobreak s h, Nat.add_zero]
  rintro ⟨_, h2⟩
  cases s with
  | nil => simp at h2
  | cons a s =>
    simp only [List.head?_cons, Option.some.injEq] at h2
    exact h a (by simp) (Or.inr h2)

theorem column_append (pre s : Bytes) (h : ∀ x ∈ s, ¬ Break x) :
    column (pre ++ s) = column pre + s.length := by
  unfold column
  rw [List.reverse_append, List.takeWhile_append_of_pos, List.length_append, List.length_reverse]
  · omega
  · intro x hx
    have := h x (by simpa using hx)
    simp only [Break, not_or] at this
    simp [this]

theorem column_break (pre s : Bytes) (c : UInt8) (h : Break c) : column (pre ++ s ++ [c]) = 0 := by
  unfold column
  rw [List.reverse_append, List.reverse_singleton, List.singleton_append,
    List.takeWhile_cons_of_neg]
  · rfl
  · rcases h with rfl | rfl <;> decide

/-- Positions of the pieces of a text that starts after `pre`. -/
def PosOK (pre : Bytes) (l c : Nat) (ps : List Piece) : Prop :=
  ∀ ps1 p ps2, ps = ps1 ++ p :: ps2 → p.tok.e = p.tok.b + p.raw.length ∧
    ((l = breaks pre ∧ c = column pre) → OneLineStrings ps1 →
      p.tok.l = breaks (pre ++ textOf ps1 ++ p.blank) ∧
      p.tok.b = column (pre ++ textOf ps1 ++ p.blank))

/-- The end of a text: blanks, or an unterminated string with its error position. -/
def TailOK (err : Option (Nat × Nat)) (tail : Bytes) : Prop :=
  (err = none ∧ ∀ x ∈ tail, Blank x) ∨
  (∃ pos bl s, err = some pos ∧ tail = bl ++ chQuote :: s ∧ (∀ x ∈ bl, Blank x) ∧
    NoQuote chQuote s)

theorem textOf_nil : textOf [] = [] := rfl
theorem textOf_cons (p : Piece) (ps : List Piece) :
    textOf (p :: ps) = p.blank ++ p.raw ++ textOf ps := by simp [textOf]

theorem decomposes_cons {rest raw tail : Bytes} {ts : List Token} {ps : List Piece} {tok : Token}
    (h : Decomposes rest ts ps tail) (hs : Spelled tok raw) :
    Decomposes (raw ++ rest) (tok :: ts) (⟨[], raw, tok⟩ :: ps) tail := by
  refine ⟨by simp [h.toks_eq], by rw [textOf_cons, h.src_eq]; simp, ?_⟩
  intro p hp
  rcases List.mem_cons.1 hp with rfl | hp
  · exact ⟨by simp, hs⟩
  · exact h.pieces p hp

theorem posOK_cons {pre raw : Bytes} {l c l' c' : Nat} {ps : List Piece} {tok : Token}
    (h : PosOK (pre ++ raw) l' c' ps) (hl : tok.l = l) (hb : tok.b = c)
    (he : tok.e = c + raw.length)
    (hnext : l = breaks pre → c = column pre → (tok.t = .value → ∀ x ∈ raw, ¬ Break x) →
      l' = breaks (pre ++ raw) ∧ c' = column (pre ++ raw)) :
    PosOK pre l c (⟨[], raw, tok⟩ :: ps) := by
  intro ps1 p ps2 heq
  cases ps1 with
  | nil =>
    simp only [List.nil_append, List.cons.injEq] at heq
    obtain ⟨rfl, rfl⟩ := heq
    refine ⟨by rw [he, hb], fun hpos _ => ?_⟩
    simp only [textOf_nil, List.append_nil]
    exact ⟨hl.trans hpos.1, hb.trans hpos.2⟩
  | cons q ps1 =>
    simp only [List.cons_append, List.cons.injEq] at heq
    obtain ⟨rfl, rfl⟩ := heq
    obtain ⟨h1, h2⟩ := h ps1 p ps2 rfl
    refine ⟨h1, fun hpos hone => ?_⟩
    have := h2 (hnext hpos.1 hpos.2 (fun ht => hone _ List.mem_cons_self ht))
      (fun q hq => hone q (by simp [hq]))
    simpa [textOf_cons] using this

theorem lexes_pieces {l c : Nat} {s : Bytes} {ts : List Token} {err : Option (Nat × Nat)}
    (h : Lexes l c s ts err) : ∀ pre : Bytes,
      ¬ (pre.getLast? = some chCR ∧ s.head? = some chLF) →
      ∃ ps tail, Decomposes s ts ps tail ∧ TailOK err tail ∧ PosOK pre l c ps ∧
        (∀ pos, err = some pos → (l = breaks pre ∧ c = column pre) → OneLineStrings ps →
          (∀ x ∈ tail, ¬ Break x) → pos = (breaks (pre ++ s), column (pre ++ s))) := by
  induction h with
  | done l c =>
    intro pre _
    exact ⟨[], [], ⟨rfl, rfl, by simp⟩, Or.inl ⟨rfl, by simp⟩, by intro ps1 p ps2 h; simp at h,
      by simp⟩
  | blank l c x rest ts err hx h ih =>
    intro pre _
    have hxb : ¬ Break x := by rcases hx with rfl | rfl <;> decide
    have hx1 : ∀ y ∈ [x], ¬ Break y := by simpa using hxb
    obtain ⟨ps, tail, hd, ht, hp, he⟩ := ih (pre ++ [x]) (by
      rintro ⟨h1, _⟩
      simp only [List.getLast?_append, List.getLast?_singleton, Option.some_or, Option.some.injEq] at h1
      exact hxb (Or.inl h1))
    have hadv : (l = breaks pre ∧ c = column pre) →
        (l = breaks (pre ++ [x]) ∧ c + 1 = column (pre ++ [x])) := by
      rintro ⟨rfl, rfl⟩
      exact ⟨(breaks_snoc_nobreak _ _ hx1).symm, (column_append _ _ hx1).symm⟩
    cases ps with
    | nil =>
      refine ⟨[], x :: tail, ⟨hd.toks_eq, by rw [hd.src_eq]; rfl, by simp⟩, ?_,
        by intro ps1 p ps2 h; simp at h, ?_⟩
      · rcases ht with ⟨e1, e2⟩ | ⟨pos, bl, s, e1, e2, e3, e4⟩
        · exact Or.inl ⟨e1, by intro y hy; rcases List.mem_cons.1 hy with rfl | hy; exact hx; exact e2 y hy⟩
        · exact Or.inr ⟨pos, x :: bl, s, e1, by simp [e2],
            by intro y hy; rcases List.mem_cons.1 hy with rfl | hy; exact hx; exact e3 y hy, e4⟩
      · intro pos e1 e2 e3 e4
        have := he pos e1 (hadv e2) e3 (fun y hy => e4 y (by simp [hy]))
        simpa using this
    | cons p ps =>
      refine ⟨{ p with blank := x :: p.blank } :: ps, tail, ⟨by simpa using hd.toks_eq, ?_, ?_⟩, ht, ?_, ?_⟩
      · have := hd.src_eq
        simp only [textOf_cons] at this ⊢
        simp [this]
      · intro q hq
        rcases List.mem_cons.1 hq with rfl | hq
        · obtain ⟨h1, h2⟩ := hd.pieces p (by simp)
          refine ⟨?_, h2⟩
          intro y hy
          rcases List.mem_cons.1 hy with rfl | hy
          · exact hx
          · exact h1 y hy
        · exact hd.pieces q (by simp [hq])
      · intro ps1 q ps2 heq
        cases ps1 with
        | nil =>
          simp only [List.nil_append, List.cons.injEq] at heq
          obtain ⟨rfl, rfl⟩ := heq
          obtain ⟨h1, h2⟩ := hp [] p ps rfl
          refine ⟨h1, fun hpos hone => ?_⟩
          simpa [textOf_nil] using h2 (hadv hpos) hone
        | cons r ps1 =>
          simp only [List.cons_append, List.cons.injEq] at heq
          obtain ⟨rfl, rfl⟩ := heq
          obtain ⟨h1, h2⟩ := hp (p :: ps1) q ps2 rfl
          refine ⟨h1, fun hpos hone => ?_⟩
          have hone' : OneLineStrings (p :: ps1) := by
            intro z hz
            rcases List.mem_cons.1 hz with rfl | hz
            · exact hone { z with blank := x :: z.blank } (by simp)
            · exact hone z (by simp [hz])
          simpa [textOf_cons] using h2 (hadv hpos) hone'
      · intro pos e1 e2 e3 e4
        have hone' : OneLineStrings (p :: ps) := by
          intro z hz
          rcases List.mem_cons.1 hz with rfl | hz
          · exact e3 { z with blank := x :: z.blank } (by simp)
          · exact e3 z (by simp [hz])
        have := he pos e1 (hadv e2) hone' e4
        simpa using this
  | eol l c raw rest ts err hraw h ih =>
    intro pre hpre
    have hnext : l = breaks pre → c = column pre → l + 1 = breaks (pre ++ raw) ∧ 0 = column (pre ++ raw) := by
      rintro rfl rfl
      rw [breaks_append]
      · rcases hraw with rfl | rfl | ⟨rfl, _⟩
        · exact ⟨rfl, (column_break pre [] chLF (Or.inr rfl) |> fun h => by simpa using h.symm)⟩
        · exact ⟨rfl, (column_break pre [chCR] chLF (Or.inr rfl) |> fun h => by simpa using h.symm)⟩
        · exact ⟨rfl, (column_break pre [] chCR (Or.inl rfl) |> fun h => by simpa using h.symm)⟩
      · rintro ⟨h1, h2⟩
        apply hpre
        refine ⟨h1, ?_⟩
        rcases hraw with rfl | rfl | ⟨rfl, _⟩
        · rfl
        · simp [chCR, chLF] at h2
        · simp [chCR, chLF] at h2
    obtain ⟨ps, tail, hd, ht, hp, he⟩ := ih (pre ++ raw) (by
      rintro ⟨h1, h2⟩
      rcases hraw with rfl | rfl | ⟨rfl, h3⟩
      · simp [chCR, chLF] at h1
      · simp [chCR, chLF] at h1
      · exact h3 h2)
    refine ⟨_, tail, decomposes_cons hd (.eol rfl rfl ?_), ht,
      posOK_cons hp rfl rfl rfl (fun h1 h2 _ => hnext h1 h2), ?_⟩
    · rcases hraw with h | h | ⟨h, _⟩ <;> simp [h]
    · intro pos e1 e2 e3 e4
      have := he pos e1 (hnext e2.1 e2.2) (fun q hq => e3 q (by simp [hq])) e4
      simpa using this
  | comment l c v rest ts err hv hrest h ih =>
    intro pre _
    have hvb : ∀ x ∈ chSlash :: chSlash :: v, ¬ Break x := by
      intro x hx
      simp only [List.mem_cons] at hx
      rcases hx with rfl | rfl | hx
      · decide
      · decide
      · exact hv x hx
    obtain ⟨ps, tail, hd, ht, hp, he⟩ := ih (pre ++ (chSlash :: chSlash :: v)) (by
      rintro ⟨h1, _⟩
      rw [getLast?_append_ne _ _ (by simp)] at h1
      exact hvb chCR (List.mem_of_getLast? h1) (Or.inl rfl))
    have hnext : l = breaks pre → c = column pre →
        l = breaks (pre ++ (chSlash :: chSlash :: v)) ∧
        c + (v.length + 2) = column (pre ++ (chSlash :: chSlash :: v)) := by
      rintro rfl rfl
      rw [breaks_snoc_nobreak _ _ hvb, column_append _ _ hvb]
      exact ⟨rfl, rfl⟩
    refine ⟨_, tail, decomposes_cons (raw := chSlash :: chSlash :: v) hd (.comment rfl rfl hv), ht,
      posOK_cons hp rfl rfl rfl (fun h1 h2 _ => hnext h1 h2), ?_⟩
    intro pos e1 e2 e3 e4
    have := he pos e1 (hnext e2.1 e2.2) (fun q hq => e3 q (by simp [hq])) e4
    simpa using this
  | bare l c v rest ts err hne hq hsl hv hrest h ih =>
    intro pre _
    have hvb : ∀ x ∈ v, ¬ Break x := fun x hx hb => hv x hx (Or.inr hb)
    obtain ⟨ps, tail, hd, ht, hp, he⟩ := ih (pre ++ v) (by
      rintro ⟨h1, _⟩
      rw [getLast?_append_ne _ _ hne] at h1
      exact hvb chCR (List.mem_of_getLast? h1) (Or.inl rfl))
    have hnext : l = breaks pre → c = column pre →
        l = breaks (pre ++ v) ∧ c + v.length = column (pre ++ v) := by
      rintro rfl rfl
      rw [breaks_snoc_nobreak _ _ hvb, column_append _ _ hvb]
      exact ⟨rfl, rfl⟩
    refine ⟨_, tail, decomposes_cons hd (.bare rfl rfl hne hq hv), ht,
      posOK_cons hp rfl rfl rfl (fun h1 h2 _ => hnext h1 h2), ?_⟩
    intro pos e1 e2 e3 e4
    have := he pos e1 (hnext e2.1 e2.2) (fun q hq => e3 q (by simp [hq])) e4
    simpa using this
  | quoted l c body rest ts err hb hl h ih =>
    intro pre _
    obtain ⟨ps, tail, hd, ht, hp, he⟩ := ih (pre ++ (chQuote :: (body ++ [chQuote]))) (by
      rintro ⟨h1, _⟩
      rw [getLast?_append_ne _ _ (by simp), ← List.cons_append, List.getLast?_append] at h1
      simp [chCR, chQuote] at h1)
    have hnext : l = breaks pre → c = column pre →
        (∀ x ∈ (chQuote :: (body ++ [chQuote])), ¬ Break x) →
        l = breaks (pre ++ (chQuote :: (body ++ [chQuote]))) ∧
        c + (body.length + 2) = column (pre ++ (chQuote :: (body ++ [chQuote]))) := by
      rintro rfl rfl hvb
      rw [breaks_snoc_nobreak _ _ hvb, column_append _ _ hvb]
      simp
    have hD := decomposes_cons (raw := chQuote :: (body ++ [chQuote]))
      (tok := ⟨chQuote :: (unescapeQuotes body ++ [chQuote]), l, c, c + (body.length + 2), .value⟩) hd
      (.quoted rfl body (unescapeQuotes body) rfl rfl (unescaped_unescapeQuotes body) hb hl)
    refine ⟨_, tail, by simpa using hD, ht,
      posOK_cons hp rfl rfl (by simp) (fun h1 h2 h3 => hnext h1 h2 (h3 rfl)), ?_⟩
    intro pos e1 e2 e3 e4
    have := he pos e1 (hnext e2.1 e2.2 (e3 _ List.mem_cons_self rfl))
      (fun q hq => e3 q (by simp [hq])) e4
    simpa using this
  | unterminated l c rest hn =>
    intro pre _
    refine ⟨[], chQuote :: rest, ⟨rfl, rfl, by simp⟩,
      Or.inr ⟨_, [], rest, rfl, rfl, by simp, hn⟩, by intro ps1 p ps2 h; simp at h, ?_⟩
    intro pos e1 e2 _ e4
    simp only [Option.some.injEq] at e1
    rw [breaks_snoc_nobreak _ _ e4, column_append _ _ e4, ← e1, e2.1, e2.2]
    simp

end Teal
