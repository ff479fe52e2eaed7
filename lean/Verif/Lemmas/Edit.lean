import Verif.Spec.Edit
import Verif.Spec.Text
import Verif.Lemmas.Text
import Verif.Lemmas.LexesPieces

/-! # Replacing words of a text -/

namespace Teal.Lsp

open Teal Teal.Spec Teal.Lsp.Spec

theorem at_here {pre post : Bytes} {l c : Nat} (hl : l = breaks pre) (hc : c = column pre)
    (hs : ¬ (pre.getLast? = some chCR ∧ post.head? = some chLF)) : At (pre ++ post) l c pre.length :=
  ⟨pre, post, rfl, rfl, hl.symm, hc.symm, hs⟩

theorem breaks_zero {s : Bytes} (h : breaks s = 0) : ∀ x ∈ s, ¬ Break x := by
  fun_induction breaks s with
  | case1 => simp
  | case2 c hc => cases h
  | case3 c hc => intro x hx; rw [List.mem_singleton.1 hx]; exact hc
  | case4 c d t hcd ih => cases h
  | case5 c d t h1 h2 ih => cases h
  | case6 c d t h1 h2 ih =>
    intro x hx
    rcases List.mem_cons.1 hx with rfl | hx
    · exact h2
    · exact ih h x hx

/-- A line and column name one offset. -/
theorem at_unique {src : Bytes} {l c o o' : Nat} (h : At src l c o) (h' : At src l c o') : o = o' := by
  have key : ∀ {o o' : Nat}, At src l c o → At src l c o' → ¬ o < o' := by
    rintro o o' ⟨pre, post, he, rfl, h1, h2, h3⟩ ⟨pre', post', he', rfl, h1', h2', -⟩ hlt
    rw [he] at he'
    obtain ⟨mid, rfl, hm⟩ | ⟨mid, rfl, hm⟩ := List.append_eq_append_iff.1 he'
    · subst hm
      have hne : mid ≠ [] := by rintro rfl; simp at hlt
      have hb : breaks mid = 0 := by
        rw [breaks_append] at h1'
        · omega
        · rintro ⟨e1, e2⟩
          refine h3 ⟨e1, ?_⟩
          cases mid with
          | nil => exact absurd rfl hne
          | cons a m => simpa using e2
      rw [column_append _ _ (breaks_zero hb)] at h2'
      have := List.length_pos_iff.2 hne
      omega
    · simp at hlt
      omega
  have := key h h'
  have := key h' h
  omega

theorem splice_skip (o : Nat) (raw rest : Bytes) (cuts : List Cut) (h1 : ∀ c ∈ cuts, o + raw.length ≤ c.start)
    (h2 : ∀ c ∈ cuts, c.start ≤ c.stop) : splice o cuts (raw ++ rest) = raw ++ splice (o + raw.length) cuts rest := by
  cases cuts with
  | nil => rfl
  | cons c cs =>
    have a1 := h1 c (by simp)
    have a2 := h2 c (by simp)
    simp only [splice]
    rw [List.take_append, List.take_of_length_le (by omega), List.drop_append, List.drop_of_length_le (by omega),
      Nat.sub_sub, Nat.sub_sub]
    simp

/-- Which words are replaced: the number of bytes replaced at the beginning of a word, what they
are replaced with, and how the new word is read. -/
abbrev Plan := Token → Option (Nat × Bytes × Bytes)

/-- A plan that replaces unquoted words by words. -/
def Plan.Fits (f : Plan) (t : Token) : Prop :=
  ∀ k x w, f t = some (k, x, w) → t.t = .value ∧ t.v.head? ≠ some chQuote ∧ k ≤ t.v.length ∧ Writes (x ++ t.v.drop k) w

/-- How a word is read afterwards. -/
def Plan.value (f : Plan) (t : Token) : Bytes :=
  match f t with
  | some (_, _, w) => w
  | none => t.v

/-- The token `t'` comes from the token `t`. -/
def Plan.Becomes (f : Plan) (t t' : Token) : Prop := t'.l = t.l ∧ t'.t = t.t ∧ t'.v = f.value t

inductive Forall2 {α β : Type} (R : α → β → Prop) : List α → List β → Prop
  | nil : Forall2 R [] []
  | cons {a b as bs} (h : R a b) (hs : Forall2 R as bs) : Forall2 R (a :: as) (b :: bs)

/-- The replacement at the word `t`. -/
def Plan.CutAt (f : Plan) (src : Bytes) (t : Token) (c : Cut) : Prop :=
  ∃ k x w, f t = some (k, x, w) ∧ At src t.l t.b c.start ∧ At src t.l (t.b + k) c.stop ∧ c.text = x ∧ c.stop = c.start + k

theorem writes_head {raw v : Bytes} (h : Writes raw v) : ∃ x t, raw = x :: t ∧ ¬ Stop x := by
  cases h with
  | bare _ hne hq hsl hv =>
    cases raw with
    | nil => exact absurd rfl hne
    | cons x t => exact ⟨x, t, rfl, hv x (by simp)⟩
  | quoted body u hu hb hl => exact ⟨chQuote, _, rfl, by decide⟩

theorem break_unescape {body : Bytes} {x : UInt8} (hx : x ∈ body) (hb : Break x) : x ∈ unescapeQuotes body := by
  fun_induction unescapeQuotes body with
  | case1 => exact hx
  | case2 c => exact hx
  | case3 c d t h ih =>
    obtain ⟨rfl, rfl⟩ := h
    simp only [List.mem_cons] at hx
    rcases hx with rfl | rfl | hx
    · exact absurd hb (by decide)
    · exact absurd hb (by decide)
    · exact List.mem_cons.2 (.inr (ih hx))
  | case4 c d t h ih =>
    rcases List.mem_cons.1 hx with rfl | hx
    · simp
    · exact List.mem_cons.2 (.inr (ih hx))

theorem lexes_edit (f : Plan) {l c : Nat} {s : Bytes} {ts : List Token} {err : Option (Nat × Nat)} (h : Lexes l c s ts err) :
    ∀ pre : Bytes, ¬ (pre.getLast? = some chCR ∧ s.head? = some chLF) → l = breaks pre → c = column pre →
      (∀ t ∈ ts, f.Fits t) → (∀ t ∈ ts, t.t = .value → ∀ x ∈ t.v, ¬ Break x) →
      ∃ cuts : List Cut, (∀ q ∈ cuts, pre.length ≤ q.start ∧ q.start ≤ q.stop) ∧
        cuts.Pairwise (fun a b => a.stop ≤ b.start ∧ a.start < b.stop) ∧
        (∀ q ∈ cuts, ∃ t ∈ ts, f.CutAt (pre ++ s) t q) ∧
        (∀ t ∈ ts, (f t).isSome → ∃ q ∈ cuts, f.CutAt (pre ++ s) t q) ∧
        (s = [] → splice pre.length cuts s = []) ∧
        (∀ x, Stop x → ((splice pre.length cuts s).head? = some x ↔ s.head? = some x)) ∧
        ∀ c', ∃ ts' err', Lexes l c' (splice pre.length cuts s) ts' err' ∧ Forall2 f.Becomes ts ts' := by
  induction h with
  | done l c =>
    intro pre _ _ _ _ _
    exact ⟨[], by simp, .nil, by simp, by simp, fun _ => rfl, fun _ _ => Iff.rfl, fun c' => ⟨_, _, .done _ _, .nil⟩⟩
  | blank l c x rest ts err hx h ih =>
    intro pre hs hl hc hf hone
    have hxb : ¬ Break x := by rcases hx with rfl | rfl <;> decide
    have hx1 : ∀ y ∈ [x], ¬ Break y := by simpa using hxb
    obtain ⟨cuts, h1, h2, h3, h4, -, -, h6⟩ := ih (pre ++ [x]) (by
      rintro ⟨h1, _⟩
      simp only [List.getLast?_append, List.getLast?_singleton, Option.some_or, Option.some.injEq] at h1
      exact hxb (Or.inl h1)) (by rw [breaks_snoc_nobreak _ _ hx1, hl]) (by rw [column_append _ _ hx1, hc]; rfl) hf hone
    simp only [List.append_assoc, List.length_append, List.length_singleton, List.singleton_append] at h1 h3 h4 h6
    have hsp : splice pre.length cuts (x :: rest) = x :: splice (pre.length + 1) cuts rest :=
      splice_skip pre.length [x] rest cuts (fun q hq => (h1 q hq).1) (fun q hq => (h1 q hq).2)
    refine ⟨cuts, fun q hq => ⟨by have := (h1 q hq).1; omega, (h1 q hq).2⟩, h2, h3, h4, by simp, ?_, ?_⟩
    · intro y _; rw [hsp]; simp
    · intro c'
      obtain ⟨ts', err', h7, h8⟩ := h6 (c' + 1)
      rw [hsp]
      exact ⟨ts', err', .blank _ _ _ _ _ _ hx h7, h8⟩
  | eol l c raw rest ts err hraw h ih =>
    intro pre hpre hl hc hf hone
    have hnext : l + 1 = breaks (pre ++ raw) ∧ 0 = column (pre ++ raw) := by
      subst hl; subst hc
      rw [breaks_append]
      · rcases hraw with rfl | rfl | ⟨rfl, _⟩
        · exact ⟨rfl, (column_break pre [] chLF (Or.inr rfl) |> fun h => by simpa using h.symm)⟩
        · exact ⟨rfl, (column_break pre [chCR] chLF (Or.inr rfl) |> fun h => by simpa using h.symm)⟩
        · exact ⟨rfl, (column_break pre [] chCR (Or.inl rfl) |> fun h => by simpa using h.symm)⟩
      · rintro ⟨h1, h2⟩
        apply hpre
        refine ⟨h1, ?_⟩
        rcases hraw with rfl | rfl | ⟨rfl, _⟩
        · rfl
        · simp [chCR, chLF] at h2
        · simp [chCR, chLF] at h2
    have hrne : raw ≠ [] := by rcases hraw with rfl | rfl | ⟨rfl, _⟩ <;> simp
    have hfn : f { v := raw, l := l, b := c, e := c + raw.length, t := .eol } = none := by
      cases he : f { v := raw, l := l, b := c, e := c + raw.length, t := .eol } with
      | none => rfl
      | some q => obtain ⟨k, x, w⟩ := q; exact absurd ((hf _ (by simp)) k x w he).1 (by simp)
    obtain ⟨cuts, h1, h2, h3, h4, -, h5, h6⟩ := ih (pre ++ raw) (by
      rintro ⟨h1, h2⟩
      rcases hraw with rfl | rfl | ⟨rfl, h3⟩
      · simp [chCR, chLF] at h1
      · simp [chCR, chLF] at h1
      · exact h3 h2) hnext.1 hnext.2 (fun t ht => hf t (by simp [ht])) (fun t ht => hone t (by simp [ht]))
    rw [List.append_assoc] at h3 h4
    rw [List.length_append] at h1 h5 h6
    have hsp := splice_skip pre.length raw rest cuts (fun q hq => (h1 q hq).1) (fun q hq => (h1 q hq).2)
    refine ⟨cuts, fun q hq => ⟨by have := (h1 q hq).1; omega, (h1 q hq).2⟩, h2, ?_, ?_, by simp [hrne], ?_, ?_⟩
    · intro q hq
      obtain ⟨t, ht, hq⟩ := h3 q hq
      exact ⟨t, by simp [ht], hq⟩
    · intro t ht hsome
      rcases List.mem_cons.1 ht with rfl | ht
      · rw [hfn] at hsome; cases hsome
      · exact h4 t ht hsome
    · intro y _
      rw [hsp]
      cases raw with
      | nil => exact absurd rfl hrne
      | cons a b => simp
    · intro c'
      obtain ⟨ts', err', h7, h8⟩ := h6 0
      rw [hsp]
      refine ⟨_, err', .eol l c' raw _ ts' err' ?_ h7, .cons ⟨rfl, rfl, ?_⟩ h8⟩
      · rcases hraw with h | h | ⟨h, h'⟩
        · exact .inl h
        · exact .inr (.inl h)
        · exact .inr (.inr ⟨h, fun e => h' ((h5 chLF (by decide)).1 e)⟩)
      · unfold Plan.value; rw [hfn]
  | comment l c v rest ts err hv hrest h ih =>
    intro pre hpre hl hc hf hone
    have hvb : ∀ x ∈ chSlash :: chSlash :: v, ¬ Break x := by
      intro x hx
      simp only [List.mem_cons] at hx
      rcases hx with rfl | rfl | hx
      · decide
      · decide
      · exact hv x hx
    have hfn : f { v := v, l := l, b := c, e := c + (v.length + 2), t := .comment } = none := by
      cases he : f { v := v, l := l, b := c, e := c + (v.length + 2), t := .comment } with
      | none => rfl
      | some q => obtain ⟨k, x, w⟩ := q; exact absurd ((hf _ (by simp)) k x w he).1 (by simp)
    obtain ⟨cuts, h1, h2, h3, h4, h0, h5, h6⟩ := ih (pre ++ (chSlash :: chSlash :: v)) (by
      rintro ⟨h1, _⟩
      rw [getLast?_append_ne _ _ (by simp)] at h1
      exact hvb chCR (List.mem_of_getLast? h1) (Or.inl rfl)) (by rw [breaks_snoc_nobreak _ _ hvb, hl])
      (by rw [column_append _ _ hvb, hc]; rfl) (fun t ht => hf t (by simp [ht])) (fun t ht => hone t (by simp [ht]))
    rw [List.append_assoc] at h3 h4
    rw [List.length_append] at h1 h0 h5 h6
    have hsp := splice_skip pre.length (chSlash :: chSlash :: v) rest cuts (fun q hq => (h1 q hq).1) (fun q hq => (h1 q hq).2)
    refine ⟨cuts, fun q hq => ⟨by have := (h1 q hq).1; omega, (h1 q hq).2⟩, h2, ?_, ?_, by simp, ?_, ?_⟩
    · intro q hq
      obtain ⟨t, ht, hq⟩ := h3 q hq
      exact ⟨t, by simp [ht], hq⟩
    · intro t ht hsome
      rcases List.mem_cons.1 ht with rfl | ht
      · rw [hfn] at hsome; cases hsome
      · exact h4 t ht hsome
    · intro y _
      rw [show chSlash :: chSlash :: (v ++ rest) = (chSlash :: chSlash :: v) ++ rest from rfl, hsp]
      simp
    · intro c'
      obtain ⟨ts', err', h7, h8⟩ := h6 (c' + (v.length + 2))
      rw [show chSlash :: chSlash :: (v ++ rest) = (chSlash :: chSlash :: v) ++ rest from rfl, hsp]
      refine ⟨_, err', .comment l c' v _ ts' err' hv ?_ h7, .cons ⟨rfl, rfl, ?_⟩ h8⟩
      · rcases hrest with h | ⟨x, t, h, hx⟩
        · exact .inl (h0 h)
        · have := (h5 x (.inr hx)).2 (by rw [h]; rfl)
          obtain ⟨t', ht'⟩ := List.head?_eq_some_iff.1 this
          exact .inr ⟨x, t', ht', hx⟩
      · unfold Plan.value; rw [hfn]
  | bare l c v rest ts err hne hq hsl hv hrest h ih =>
    intro pre hpre hl hc hf hone
    have hvb : ∀ x ∈ v, ¬ Break x := fun x hx hb => hv x hx (Or.inr hb)
    obtain ⟨cuts, h1, h2, h3, h4, h0, h5, h6⟩ := ih (pre ++ v) (by
      rintro ⟨h1, _⟩
      rw [getLast?_append_ne _ _ hne] at h1
      exact hvb chCR (List.mem_of_getLast? h1) (Or.inl rfl)) (by rw [breaks_snoc_nobreak _ _ hvb, hl])
      (by rw [column_append _ _ hvb, hc]) (fun t ht => hf t (by simp [ht])) (fun t ht => hone t (by simp [ht]))
    rw [List.append_assoc] at h3 h4
    rw [List.length_append] at h1 h0 h5 h6
    have hrest' : AtEndOr Stop (splice (pre.length + v.length) cuts rest) := by
      rcases hrest with h | ⟨x, t, h, hx⟩
      · exact .inl (h0 h)
      · have := (h5 x hx).2 (by rw [h]; rfl)
        obtain ⟨t', ht'⟩ := List.head?_eq_some_iff.1 this
        exact .inr ⟨x, t', ht', hx⟩
    have hvh : ∀ y, Stop y → v.head? ≠ some y := by
      intro y hy he
      exact hv y (List.mem_of_head? he) hy
    cases hft : f { v := v, l := l, b := c, e := c + v.length, t := .value } with
    | none =>
      have hsp := splice_skip pre.length v rest cuts (fun q hq => (h1 q hq).1) (fun q hq => (h1 q hq).2)
      refine ⟨cuts, fun q hq => ⟨by have := (h1 q hq).1; omega, (h1 q hq).2⟩, h2, ?_, ?_, by simp [hne], ?_, ?_⟩
      · intro q hq
        obtain ⟨t, ht, hq⟩ := h3 q hq
        exact ⟨t, by simp [ht], hq⟩
      · intro t ht hsome
        rcases List.mem_cons.1 ht with rfl | ht
        · rw [hft] at hsome; cases hsome
        · exact h4 t ht hsome
      · intro y _
        rw [hsp]
        cases v with
        | nil => exact absurd rfl hne
        | cons a b => simp
      · intro c'
        obtain ⟨ts', err', h7, h8⟩ := h6 (c' + v.length)
        rw [hsp]
        refine ⟨_, err', .bare l c' v _ ts' err' hne hq hsl hv hrest' h7, .cons ⟨rfl, rfl, ?_⟩ h8⟩
        unfold Plan.value; rw [hft]
    | some q =>
      obtain ⟨k, x, w⟩ := q
      obtain ⟨-, -, hk, hw⟩ := hf { v := v, l := l, b := c, e := c + v.length, t := .value } (by simp) k x w hft
      dsimp only at hk hw
      have hsp : splice pre.length (⟨pre.length, pre.length + k, x⟩ :: cuts) (v ++ rest) =
          (x ++ v.drop k) ++ splice (pre.length + v.length) cuts rest := by
        simp only [splice, Nat.sub_self, List.take_zero, List.nil_append, Nat.add_sub_cancel_left]
        rw [List.drop_append_of_le_length hk, splice_skip, List.append_assoc, List.length_drop]
        · rw [show pre.length + k + (v.length - k) = pre.length + v.length by omega]
        · intro q hq
          have := (h1 q hq).1
          rw [List.length_drop]; omega
        · exact fun q hq => (h1 q hq).2
      have htk : ∀ y ∈ v.take k, ¬ Break y := fun y hy => hvb y (List.mem_of_mem_take hy)
      have hcut : f.CutAt (pre ++ (v ++ rest)) { v := v, l := l, b := c, e := c + v.length, t := .value } ⟨pre.length, pre.length + k, x⟩ := by
        refine ⟨k, x, w, hft, at_here hl hc hpre, ?_, rfl, rfl⟩
        have hlen : pre.length + k = (pre ++ v.take k).length := by simp [Nat.min_eq_left hk]
        show At _ l (c + k) (pre.length + k)
        rw [hlen, show pre ++ (v ++ rest) = (pre ++ v.take k) ++ (v.drop k ++ rest) by
          rw [List.append_assoc, ← List.append_assoc (v.take k), List.take_append_drop]]
        refine at_here ?_ ?_ ?_
        · rw [breaks_snoc_nobreak _ _ htk, hl]
        · rw [column_append _ _ htk, hc, List.length_take, Nat.min_eq_left hk]
        · rintro ⟨e1, e2⟩
          by_cases hkz : v.take k = []
          · rw [hkz, List.append_nil] at e1
            refine hpre ⟨e1, ?_⟩
            have hvt : v.drop k = v := by
              have := List.take_append_drop k v
              rw [hkz] at this; exact this
            rw [hvt] at e2
            exact e2
          · rw [getLast?_append_ne _ _ hkz] at e1
            exact htk chCR (List.mem_of_getLast? e1) (.inl rfl)
      obtain ⟨a, b, hab, hstop⟩ := writes_head hw
      refine ⟨⟨pre.length, pre.length + k, x⟩ :: cuts, ?_, ?_, ?_, ?_, by simp [hne], ?_, ?_⟩
      · intro q hq
        rcases List.mem_cons.1 hq with rfl | hq
        · exact ⟨Nat.le_refl _, Nat.le_add_right _ _⟩
        · exact ⟨by have := (h1 q hq).1; omega, (h1 q hq).2⟩
      · refine .cons (fun q hq => ?_) h2
        have := h1 q hq
        have := List.length_pos_iff.2 hne
        dsimp only
        omega
      · intro q hq
        rcases List.mem_cons.1 hq with rfl | hq
        · exact ⟨_, List.mem_cons_self, hcut⟩
        · obtain ⟨t, ht, hq⟩ := h3 q hq
          exact ⟨t, by simp [ht], hq⟩
      · intro t ht hsome
        rcases List.mem_cons.1 ht with rfl | ht
        · exact ⟨_, List.mem_cons_self, hcut⟩
        · obtain ⟨q, hq, h⟩ := h4 t ht hsome
          exact ⟨q, List.mem_cons_of_mem _ hq, h⟩
      · intro y hy
        rw [hsp, hab]
        constructor
        · intro he
          simp only [List.cons_append, List.head?_cons, Option.some.injEq] at he
          exact absurd (he ▸ hy) hstop
        · intro he
          rw [List.head?_append_of_ne_nil _ hne] at he
          exact absurd he (hvh y hy)
      · intro c'
        rw [hsp]
        have hvalue : f.value { v := v, l := l, b := c, e := c + v.length, t := .value } = w := by
          unfold Plan.value; rw [hft]
        clear hsp hab
        generalize x ++ v.drop k = raw at hw ⊢
        cases hw with
        | bare _ e1 e2 e3 e4 =>
          obtain ⟨ts', err', h7, h8⟩ := h6 (c' + w.length)
          exact ⟨_, err', .bare l c' w _ ts' err' e1 e2 e3 e4 hrest' h7, .cons ⟨rfl, rfl, hvalue.symm⟩ h8⟩
        | quoted body u hu hb hlast =>
          obtain ⟨ts', err', h7, h8⟩ := h6 (c' + (body.length + 2))
          refine ⟨⟨chQuote :: (unescapeQuotes body ++ [chQuote]), l, c', c' + (body.length + 2), .value⟩ :: ts', err',
            by simpa using Lexes.quoted l c' body _ ts' err' hb hlast h7, .cons ⟨rfl, rfl, ?_⟩ h8⟩
          rw [hvalue, unescape_eq hu]
  | quoted l c body rest ts err hb hlast h ih =>
    intro pre hpre hl hc hf hone
    have hvb : ∀ x ∈ (chQuote :: (body ++ [chQuote])), ¬ Break x := by
      intro x hx hbr
      simp only [List.mem_cons, List.mem_append, List.not_mem_nil, or_false] at hx
      rcases hx with rfl | hx | rfl
      · revert hbr; decide
      · refine hone _ List.mem_cons_self rfl x ?_ hbr
        simp [break_unescape hx hbr]
      · revert hbr; decide
    have hfn : f { v := chQuote :: (unescapeQuotes body ++ [chQuote]), l := l, b := c, e := c + (body.length + 2), t := .value } = none := by
      cases he : f { v := chQuote :: (unescapeQuotes body ++ [chQuote]), l := l, b := c, e := c + (body.length + 2), t := .value } with
      | none => rfl
      | some q => obtain ⟨k, x, w⟩ := q; exact absurd ((hf _ (by simp)) k x w he).2.1 (by simp)
    obtain ⟨cuts, h1, h2, h3, h4, h0, h5, h6⟩ := ih (pre ++ (chQuote :: (body ++ [chQuote]))) (by
      rintro ⟨h1, _⟩
      rw [getLast?_append_ne _ _ (by simp), ← List.cons_append, List.getLast?_append] at h1
      simp [chCR, chQuote] at h1) (by rw [breaks_snoc_nobreak _ _ hvb, hl])
      (by rw [column_append _ _ hvb, hc]; simp) (fun t ht => hf t (by simp [ht])) (fun t ht => hone t (by simp [ht]))
    rw [List.append_assoc] at h3 h4
    rw [List.length_append] at h1 h0 h5 h6
    have hshape : chQuote :: (body ++ chQuote :: rest) = (chQuote :: (body ++ [chQuote])) ++ rest := by simp
    have hlen : (chQuote :: (body ++ [chQuote])).length = body.length + 2 := by simp
    have hsp := splice_skip pre.length (chQuote :: (body ++ [chQuote])) rest cuts (fun q hq => (h1 q hq).1) (fun q hq => (h1 q hq).2)
    refine ⟨cuts, fun q hq => ⟨by have := (h1 q hq).1; omega, (h1 q hq).2⟩, h2, ?_, ?_, by simp, ?_, ?_⟩
    · intro q hq
      obtain ⟨t, ht, hq⟩ := h3 q hq
      exact ⟨t, by simp [ht], by rw [hshape]; exact hq⟩
    · intro t ht hsome
      rcases List.mem_cons.1 ht with rfl | ht
      · rw [hfn] at hsome; cases hsome
      · rw [hshape]; exact h4 t ht hsome
    · intro y _
      rw [hshape, hsp]
      simp
    · intro c'
      obtain ⟨ts', err', h7, h8⟩ := h6 (c' + (body.length + 2))
      rw [hshape, hsp]
      refine ⟨⟨chQuote :: (unescapeQuotes body ++ [chQuote]), l, c', c' + (body.length + 2), .value⟩ :: ts', err',
        by simpa using Lexes.quoted l c' body _ ts' err' hb hlast h7, .cons ⟨rfl, rfl, ?_⟩ h8⟩
      unfold Plan.value; rw [hfn]
  | unterminated l c rest hn =>
    intro pre _ _ _ _ _
    exact ⟨[], by simp, .nil, by simp, by simp, by simp, fun _ _ => Iff.rfl, fun c' => ⟨_, _, .unterminated _ _ _ hn, .nil⟩⟩

end Teal.Lsp
