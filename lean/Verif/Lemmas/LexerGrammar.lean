import Verif.Lemmas.Lexer

/-! The lexer implements the grammar `Spec.Lexes`. -/

namespace Teal

open Spec

theorem lastByte_nil : lastByte [] = chQuote := rfl

/-- Byte before the end of `s` when read after `prev`. -/
def lastFrom (prev : UInt8) (s : Bytes) : UInt8 := s.getLast?.getD prev

theorem lastFrom_cons (prev c : UInt8) (t : Bytes) : lastFrom prev (c :: t) = lastFrom c t := by
  cases t with
  | nil => simp [lastFrom]
  | cons d t =>
    simp only [lastFrom, List.getLast?_cons_cons]
    cases h : (d :: t).getLast? with
    | none => simp at h
    | some x => rfl

namespace Lexer

theorem closeAt_none (r : Bytes) : ∀ (prev : UInt8),
    closeAt (decide (prev = chBackslash)) r = none → NoQuote prev r := by
  induction r with
  | nil => intro prev _; exact .nil _
  | cons c t ih =>
    intro prev h
    rw [closeAt] at h
    split at h
    · simp at h
    · rename_i hn
      simp only [Option.map_eq_none_iff] at h
      refine .cons _ _ _ ?_ (ih c h)
      intro hc
      simp only [hc, true_and, decide_eq_false_iff_not] at hn
      exact Classical.not_not.1 hn

theorem closeAt_some (r : Bytes) : ∀ (prev : UInt8) (k : Nat),
    closeAt (decide (prev = chBackslash)) r = some k →
    ∃ body rest, r = body ++ chQuote :: rest ∧ body.length = k ∧ NoQuote prev body ∧
      lastFrom prev body ≠ chBackslash := by
  induction r with
  | nil => intro prev k h; simp [closeAt] at h
  | cons c t ih =>
    intro prev k h
    rw [closeAt] at h
    split at h
    · rename_i hq
      simp only [Option.some.injEq] at h
      refine ⟨[], t, by simp [hq.1], by simpa using h, .nil _, ?_⟩
      simpa [lastFrom] using hq.2
    · rename_i hn
      simp only [Option.map_eq_some_iff] at h
      obtain ⟨k', hk', rfl⟩ := h
      obtain ⟨body, rest, h1, h2, h3, h4⟩ := ih c k' hk'
      refine ⟨c :: body, rest, by simp [h1], by simp [h2], .cons _ _ _ ?_ h3, ?_⟩
      · intro hc
        simp only [hc, true_and, decide_eq_false_iff_not] at hn
        exact Classical.not_not.1 hn
      · rwa [lastFrom_cons]

end Lexer

theorem lexes_blanks (r : Bytes) : ∀ (l c : Nat) (ts : List Token) (err : Option (Nat × Nat)),
    Lexes l (c + (r.takeWhile qBlank).length) (r.drop (r.takeWhile qBlank).length) ts err →
    Lexes l c r ts err := by
  induction r with
  | nil => intro l c ts err h; simpa using h
  | cons x t ih =>
    intro l c ts err h
    by_cases hx : Blank x
    · rw [List.takeWhile_cons_of_pos (by simp [qBlank, hx])] at h
      refine .blank _ _ _ _ _ _ hx (ih _ _ _ _ ?_)
      simpa [Nat.add_assoc, Nat.add_comm 1] using h
    · rw [List.takeWhile_cons_of_neg (by simp [qBlank, hx])] at h
      simpa using h

/-- Loop invariant of the lexer between tokens. -/
structure Lexer.Good (z : Lexer) : Prop where
  hp : z.p = z.i
  hlb : z.lb ≤ z.i
  hi : z.i ≤ z.source.length
  hli : z.li = z.i - z.lb

/-- What one call of `readTokens` does. -/
inductive Lexer.StepRes (z z' : Lexer) : Prop
  | fin (hts : z'.ts = z.ts) (hd : z'.diag = z.diag) (hi : z'.i = z.source.length)
      (htsi : z'.tsi = z.tsi) (hl : Lexes z.l (z.i - z.lb) z.rest [] none)
  | tok (tok : Token) (hts : z'.ts = z.ts ++ [tok]) (hd : z'.diag = z.diag)
      (hs : z'.source = z.source) (htsi : z'.tsi = z.tsi) (hg : z'.Good) (hlt : z.i < z'.i)
      (hl : ∀ toks err, Lexes z'.l (z'.i - z'.lb) z'.rest toks err →
        Lexes z.l (z.i - z.lb) z.rest (tok :: toks) err)
  | err (hts : z'.ts = z.ts) (hi : z'.i = z.source.length) (htsi : z'.tsi = z.tsi) (pos : Nat × Nat)
      (hd : z'.diag = z.diag ++ [{ l := pos.1, li := pos.2, msg := .incompleteString }])
      (hl : Lexes z.l (z.i - z.lb) z.rest [] (some pos))

theorem takeWhile_split (q : UInt8 → Bool) (r : Bytes) :
    r = r.takeWhile q ++ r.drop (r.takeWhile q).length ∧ (∀ x ∈ r.takeWhile q, q x = true) ∧
      (∀ c t, r.drop (r.takeWhile q).length = c :: t → q c = false) := by
  induction r with
  | nil => simp
  | cons a r ih =>
    by_cases ha : q a = true
    · rw [List.takeWhile_cons_of_pos ha]
      obtain ⟨h1, h2, h3⟩ := ih
      refine ⟨by simpa using h1, ?_, by simpa using h3⟩
      intro x hx
      rcases List.mem_cons.1 hx with rfl | hx
      · exact ha
      · exact h2 x hx
    · rw [List.takeWhile_cons_of_neg ha]
      simp
      simpa using ha

namespace Lexer

theorem Good.rest_len {z : Lexer} (h : z.Good) : z.i + z.rest.length = z.source.length := by
  have := h.hi; rw [rest_length]; omega

theorem slice_eq (z : Lexer) (a b : Nat) (s rest : Bytes) (h : z.source.drop a = s ++ rest)
    (hl : b = a + s.length) : z.slice a b = s := by
  subst hl; simp [slice, h]

set_option maxHeartbeats 1600000 in
theorem readTokens_step (z : Lexer) (hg : z.Good) : StepRes z z.readTokens := by
  obtain ⟨hp, hlb, hi, hli⟩ := hg
  have hrl : z.i + z.rest.length = z.source.length := by rw [rest_length]; omega
  unfold readTokens
  rw [skipWhitespace_eq _ z hi hp (by rw [rest_length]; omega)]
  obtain ⟨hsplit, hall, hhead⟩ := takeWhile_split qBlank z.rest
  have hblanks := lexes_blanks z.rest z.l (z.i - z.lb)
  generalize hk : (z.rest.takeWhile qBlank).length = k at *
  have hkl : k ≤ z.rest.length := by
    rw [hsplit, List.length_append, hk]; omega
  have hr' : z.source.drop (z.i + k) = z.rest.drop k := by simp [rest, List.drop_drop]
  simp only []
  by_cases hlt : z.i + k < z.source.length
  case neg =>
    rw [if_neg hlt]
    have hke : z.i + k = z.source.length := by omega
    refine .fin rfl rfl hke rfl ?_
    apply hblanks
    have : z.rest.drop k = [] := by rw [List.drop_eq_nil_iff]; omega
    rw [this]; exact .done _ _
  case pos =>
  rw [if_pos hlt]
  have hne : z.rest.drop k ≠ [] := by
    intro h; rw [List.drop_eq_nil_iff] at h; omega
  obtain ⟨c, t, hct⟩ := List.exists_cons_of_ne_nil hne
  have hcb : ¬ Blank c := by simpa [qBlank] using hhead c t hct
  have hlen : t.length + 1 = z.source.length - (z.i + k) := by
    have := congrArg List.length hct
    simp at this; omega
  -- the state after blanks
  generalize hy : ({ z with p := z.i + k, i := z.i + k, li := z.li + k } : Lexer) = y
  have yi : y.i = z.i + k := by rw [← hy]
  have yp : y.p = z.i + k := by rw [← hy]
  have yli : y.li = z.li + k := by rw [← hy]
  have yl : y.l = z.l := by rw [← hy]
  have ylb : y.lb = z.lb := by rw [← hy]
  have yts : y.ts = z.ts := by rw [← hy]
  have ytsi : y.tsi = z.tsi := by rw [← hy]
  have yd : y.diag = z.diag := by rw [← hy]
  have ys : y.source = z.source := by rw [← hy]
  have yr : y.rest = c :: t := by rw [rest, yi, ys, hr', hct]
  have hcol : z.i - z.lb + k = y.i - y.lb := by rw [yi, ylb]; omega
  have hdropc : ∀ n s u, c :: t = s ++ u → n = z.i + k → y.source.drop n = s ++ u := by
    intro n s u h hn; rw [hn, ys, hr', hct, h]
  have hback : ∀ toks err, Lexes y.l (y.i - y.lb) (c :: t) toks err →
      Lexes z.l (z.i - z.lb) z.rest toks err := by
    intro toks err h
    apply hblanks
    rw [hct, hcol, ← yl]; exact h
  have hlenS : y.source.length = y.i + (t.length + 1) := by rw [ys, yi]; omega
  have hbeq : y.p - y.lb = y.i - y.lb := by rw [yp, yi]
  have hyle : y.lb ≤ y.i := by rw [ylb, yi]; omega
  clear hcol hblanks hk hall hhead
  simp only [yr, ← ys, ← yi]
  have h47 := rune_eq c t 47 (by decide)
  have h10 := rune_eq c t 10 (by decide)
  have h13 := rune_eq c t 13 (by decide)
  have h34 := rune_eq c t 34 (by decide)
  simp at h47 h10 h13 h34
  have hfuel : y.rest.length < y.source.length + 1 := by rw [rest_length]; omega
  by_cases hcom : ∃ t', c = chSlash ∧ t = chSlash :: t'
  · -- comment
    obtain ⟨t', rfl, rfl⟩ := hcom
    clear h47 h10 h13 h34
    have hd : decodeRune (chSlash :: chSlash :: t') = (47, 1) := decodeRune_ascii _ _ (by decide)
    have hd2 : y.source.drop (y.i + 1) = chSlash :: t' := by
      rw [← List.drop_drop]
      rw [show y.source.drop y.i = y.rest from rfl, yr]; rfl
    have hnext : y.i + 1 < y.source.length := by rw [hlenS]; simp
    have hd3 : decodeRune (chSlash :: t') = (47, 1) := decodeRune_ascii _ _ (by decide)
    simp only [hd, if_pos hnext, hd2, hd3, and_self, if_true]
    -- two iterations of the loop
    have hst : y.readComment (y.source.length + 1)
        = (y.inc 2).readComment (y.source.length - 1) := by
      have e1 : y.source.length + 1 = (y.source.length - 1) + 1 + 1 := by omega
      rw [e1, readComment]
      have : ¬ (y.i = y.source.length) := by omega
      rw [if_neg this]
      simp only [yr, hd]
      rw [if_pos (by rw [yp, yi]; omega)]
      rw [if_neg (by simp), readComment]
      have : ¬ ((y.inc 1).i = (y.inc 1).source.length) := by simp; omega
      rw [if_neg this]
      have hr1 : (y.inc 1).rest = chSlash :: t' := by rw [rest_inc, yr]; rfl
      simp only [hr1, hd3]
      rw [if_pos (by simp; omega)]
      rw [if_neg (by simp), inc_inc]
    have hr2 : (y.inc 2).rest = t' := by rw [rest_inc, yr]; rfl
    rw [hst, readComment_eq _ _ (by simp; simp at hlenS; omega) (by simp; omega)
      (by rw [hr2]; simp at hlenS; omega)]
    rw [hr2]
    obtain ⟨hs1, hs2, hs3⟩ := takeWhile_split qLine t'
    generalize hv : t'.takeWhile qLine = v at *
    have hslice : (y.inc 2).slice ((y.inc 2).p + 2) ((y.inc 2).i + v.length) = v := by
      apply slice_eq (rest := t'.drop v.length)
      · show y.source.drop (y.p + 2) = _
        rw [yp, ← yi, ← List.drop_drop]
        show y.rest.drop 2 = _
        rw [yr]; simpa using hs1
      · simp; omega
    rw [hslice]
    have htl : t'.length = v.length + (t'.drop v.length).length := by
      conv => lhs; rw [hs1]
      simp
    have hvl : v.length ≤ t'.length := by omega
    refine .tok { v := v, l := y.l, b := y.i - y.lb, e := y.i - y.lb + (v.length + 2), t := .comment }
      ?_ ?_ ?_ ?_ ?_ ?_ ?_
    · simp only [push, inc, yts, hbeq]; congr 3; omega
    · simp [push, inc, yd]
    · simp [push, inc, ys]
    · simp [push, inc, ytsi]
    · constructor
      · simp [push]
      · simp [push, inc]; omega
      · simp [push, inc]; simp at hlenS; omega
      · simp [push, inc]; omega
    · simp [push, inc]; omega
    · intro toks err h
      apply hback
      have hrr : ((y.inc 2).inc v.length).rest = t'.drop v.length := by
        rw [rest_inc, hr2]
      rw [hs1]
      refine .comment _ _ _ _ _ _ (fun x hx => by simpa [qLine] using hs2 x hx) ?_ ?_
      · cases hd : t'.drop v.length with
        | nil => exact Or.inl rfl
        | cons a u =>
          refine Or.inr ⟨a, u, rfl, ?_⟩
          simpa [qLine] using hs3 a u hd
      · have e1 : y.i - y.lb + (v.length + 2) = y.i + 2 + v.length - y.lb := by omega
        rw [e1]
        exact hrr ▸ h
  · -- not a comment
    have hnc : ¬ ((decodeRune (c :: t)).1 = 47 ∧
        (if y.i + (decodeRune (c :: t)).2 < y.source.length then
          (decodeRune (y.source.drop (y.i + (decodeRune (c :: t)).2))).1 else 0) = 47) := by
      rintro ⟨ha, hb⟩
      have hc47 := h47.1 ha
      have hd : decodeRune (c :: t) = (47, 1) := by
        rw [hc47]; exact decodeRune_ascii _ _ (by decide)
      rw [hd] at hb
      simp only [] at hb
      split at hb
      · rename_i hlt'
        have hd2 : y.source.drop (y.i + 1) = t := by
          rw [← List.drop_drop]
          rw [show y.source.drop y.i = y.rest from rfl, yr]; rfl
        rw [hd2] at hb
        cases t with
        | nil => simp at hlenS; omega
        | cons d t' =>
          have := (rune_eq d t' 47 (by decide)).1 (by simpa using hb)
          exact hcom ⟨t', hc47, by rw [this]⟩
      · simp at hb
    rw [if_neg hnc]
    by_cases hbr : c = 10 ∨ c = 13
    · -- line break
      rw [if_pos (by rw [h10, h13]; exact hbr)]
      rw [readEol]
      rw [if_neg (by omega : ¬ y.i = y.source.length)]
      simp only [yr]
      -- generic conclusion for a break of spelling `raw`
      have concl : ∀ (raw u : Bytes), c :: t = raw ++ u → 0 < raw.length →
          (raw = [chLF] ∨ raw = [chCR, chLF] ∨ (raw = [chCR] ∧ u.head? ≠ some chLF)) →
          StepRes z ((y.inc raw.length).emit .eol) := by
        intro raw u hru hpos hraw
        clear h47 h10 h13 h34 hnc hcom hbr
        have hl2 : t.length + 1 = raw.length + u.length := by
          have := congrArg List.length hru; simpa using this
        have hslice : (y.inc raw.length).slice (y.inc raw.length).p (y.inc raw.length).i = raw := by
          apply slice_eq (rest := u)
          · exact hdropc _ _ _ hru (by simp [yp])
          · simp [yp, yi]
        refine .tok { v := raw, l := y.l, b := y.i - y.lb, e := y.i - y.lb + raw.length, t := .eol }
          ?_ ?_ ?_ ?_ ?_ ?_ ?_
        · simp only [emit, hslice]
          simp only [push, inc, yts, hbeq]; congr 3; omega
        · simp [emit, push, inc, yd]
        · simp [emit, push, inc, ys]
        · simp [emit, push, inc, ytsi]
        · constructor
          · simp [emit, push]
          · simp [emit, push]
          · simp [emit, push, inc]; omega
          · simp [emit, push]
        · simp [emit, push]; omega
        · intro toks err h
          apply hback
          rw [hru]
          refine .eol _ _ _ _ _ _ hraw ?_
          have hrr : (y.inc raw.length).rest = u := by rw [rest_inc, yr, hru]; simp
          have h2 : Lexes (y.l + 1) ((y.inc raw.length).i - (y.inc raw.length).i) (y.inc raw.length).rest toks err := h
          rw [hrr, Nat.sub_self] at h2
          exact h2
      by_cases hcr : c = 13
      · have hd : decodeRune (c :: t) = (13, 1) := by rw [hcr]; exact decodeRune_ascii _ _ (by decide)
        simp only [hd, if_true]
        have hr1 : (y.inc 1).rest = t := by rw [rest_inc, yr]; rfl
        cases t with
        | nil =>
          rw [if_neg (by simp; simp at hlenS; omega)]
          exact concl [chCR] [] (by simp [hcr]) (by simp) (by simp)
        | cons d t' =>
          rw [if_pos (by simp; simp at hlenS; omega)]
          simp only [hr1]
          have hd10 := rune_eq d t' 10 (by decide)
          simp at hd10
          by_cases hdl : d = 10
          · rw [if_pos (hd10.2 hdl)]
            have hd2 : decodeRune (d :: t') = (10, 1) := by
              rw [hdl]; exact decodeRune_ascii _ _ (by decide)
            rw [hd2, inc_inc]
            exact concl [chCR, chLF] t' (by simp [hcr, hdl]) (by simp) (by simp)
          · rw [if_neg (fun h => hdl (hd10.1 h))]
            exact concl [chCR] (d :: t') (by simp [hcr]) (by simp)
              (Or.inr (Or.inr ⟨rfl, by simpa using hdl⟩))
      · have hlf : c = 10 := by rcases hbr with h | h; exact h; exact absurd h hcr
        rw [if_neg (fun h => hcr (h13.1 h)), if_pos (h10.2 hlf)]
        have hd : decodeRune (c :: t) = (10, 1) := by rw [hlf]; exact decodeRune_ascii _ _ (by decide)
        rw [hd]
        exact concl [chLF] t (by simp [hlf]) (by simp) (by simp)
    · -- a value
      rw [if_neg (by rw [h10, h13]; exact hbr)]
      unfold readValue
      simp only [yr]
      by_cases hq : c = 34
      · -- quoted
        rw [if_pos (h34.2 hq)]
        clear h47 h10 h13 h34 hnc hcom hbr
        have hd : decodeRune (c :: t) = (34, 1) := by rw [hq]; exact decodeRune_ascii _ _ (by decide)
        simp only [hd]
        have hr1 : (y.inc 1).rest = t := by rw [rest_inc, yr]; rfl
        rw [readString_eq _ _ _ (by simp; omega) (by rw [hr1]; omega)]
        rw [hr1]
        have hdec : decide (34 = 92) = decide (chQuote = chBackslash) := by decide
        rw [hdec]
        cases hcl : closeAt (decide (chQuote = chBackslash)) t with
        | none =>
          have hnq := closeAt_none t _ hcl
          refine .err ?_ ?_ ?_ (y.l, y.i - y.lb + (t.length + 1)) ?_ ?_
          · simp [fail, inc, yts]
          · simp [fail, inc, ys] at *; omega
          · simp [fail, inc, ytsi]
          · simp only [fail, inc, yd]; congr 3; omega
          · apply hback
            rw [hq]
            exact .unterminated _ _ _ hnq
        | some n =>
          obtain ⟨body, u, htu, hbl, hnq, hlast⟩ := closeAt_some t _ _ hcl
          have hl2 : t.length = body.length + (u.length + 1) := by rw [htu]; simp
          have hslice : (y.inc 1).slice ((y.inc 1).p + 1) ((y.inc 1).i + n) = body := by
            apply slice_eq (rest := chQuote :: u)
            · show y.source.drop (y.p + 1) = _
              rw [yp, ← yi, ← List.drop_drop]
              show y.rest.drop 1 = _
              rw [yr, ← htu]; rfl
            · simp [yp, yi, hbl]
          simp only [hslice, inc_inc]
          refine .tok { v := chQuote :: (unescapeQuotes body ++ [chQuote]), l := y.l, b := y.i - y.lb, e := y.i - y.lb + (body.length + 2), t := .value }
            ?_ ?_ ?_ ?_ ?_ ?_ ?_
          · simp only [push, inc, yts, hbeq]; congr 3; omega
          · simp [push, inc, yd]
          · simp [push, inc, ys]
          · simp [push, inc, ytsi]
          · constructor
            · simp [push]
            · simp [push, inc]; omega
            · simp [push, inc]; omega
            · simp [push, inc]; omega
          · simp [push, inc]; omega
          · intro toks err h
            apply hback
            rw [hq, htu]
            refine .quoted _ _ _ _ _ _ hnq hlast ?_
            have hrr : (y.inc (1 + (n + 1))).rest = u := by
              rw [rest_inc, yr, htu, ← hbl]
              rw [show 1 + (body.length + 1) = (body.length + 1) + 1 by omega, List.drop_succ_cons]
              simp [List.drop_append]
            have e1 : y.i - y.lb + (body.length + 2) = (y.inc (1 + (n+1))).i - y.lb := by simp; omega
            rw [e1]
            exact hrr ▸ h
      · -- bare word
        rw [if_neg (fun h => hq (h34.1 h))]
        clear h47 h10 h13 h34 hnc
        rw [readBare_eq _ _ (by omega) hfuel, yr]
        have hstop : ¬ Stop c := by
          rintro (h | h | h)
          · exact hcb h
          · exact hbr (Or.inr h)
          · exact hbr (Or.inl h)
        obtain ⟨hs1, hs2, hs3⟩ := takeWhile_split qBare (c :: t)
        have hne : (c :: t).takeWhile qBare ≠ [] := by
          rw [List.takeWhile_cons_of_pos (by simp [qBare, hstop])]; simp
        have hhd : ((c :: t).takeWhile qBare).head? = some c := by
          rw [List.takeWhile_cons_of_pos (by simp [qBare, hstop])]; simp
        generalize hv : (c :: t).takeWhile qBare = v at *
        have hvpos : 0 < v.length := List.length_pos_iff.2 hne
        generalize hu : (c :: t).drop v.length = u at *
        have hl2 : t.length + 1 = v.length + u.length := by
          have := congrArg List.length hs1; simpa using this
        have hslice : (y.inc v.length).slice (y.inc v.length).p (y.inc v.length).i = v := by
          apply slice_eq (rest := u)
          · exact hdropc _ _ _ hs1 (by simp [yp])
          · simp [yp, yi]
        refine .tok { v := v, l := y.l, b := y.i - y.lb, e := y.i - y.lb + v.length, t := .value }
          ?_ ?_ ?_ ?_ ?_ ?_ ?_
        · simp only [emit, hslice]
          simp only [push, inc, yts, hbeq]; congr 3; omega
        · simp [emit, push, inc, yd]
        · simp [emit, push, inc, ys]
        · simp [emit, push, inc, ytsi]
        · constructor
          · simp [emit, push]
          · simp [emit, push, inc]; omega
          · simp [emit, push, inc]; omega
          · simp [emit, push, inc]; omega
        · simp [emit, push]; omega
        · intro toks err h
          apply hback
          rw [hs1]
          refine .bare _ _ _ _ _ _ hne ?_ ?_ (fun x hx => by simpa [qBare] using hs2 x hx) ?_ ?_
          · rw [hhd]; simpa using hq
          · intro h2
            apply hcom
            have : v = v.take 2 ++ v.drop 2 := (List.take_append_drop 2 v).symm
            rw [h2] at this
            rw [this] at hs1
            simp only [List.cons_append, List.nil_append, List.cons.injEq] at hs1
            exact ⟨_, hs1.1, hs1.2⟩
          · cases hd : u with
            | nil => exact Or.inl rfl
            | cons a w =>
              refine Or.inr ⟨a, w, rfl, ?_⟩
              simpa [qBare] using hs3 a w hd
          · have hrr : (y.inc v.length).rest = u := by rw [rest_inc, yr, hu]
            have e1 : y.i - y.lb + v.length = (y.inc v.length).i - y.lb := by simp; omega
            rw [e1]
            exact hrr ▸ h

end Lexer

end Teal
