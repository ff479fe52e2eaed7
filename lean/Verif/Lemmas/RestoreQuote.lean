import Verif.Lemmas.Restore2
import Verif.Lemmas.Tools
import Verif.Props.LiteralEnd

/-! Printed words with a quote between quotes are not read as themselves. -/

namespace Teal
open Spec P Props

/-! ## The word itself -/

theorem unescaped_last {body u : Bytes} (h : Unescaped body u) : ∀ {p : UInt8}, lastFrom p body ≠ chBackslash → lastFrom p u ≠ chBackslash := by
  induction h with
  | nil => exact fun h => h
  | esc t u h ih =>
    intro p hl
    rw [lastFrom_cons, lastFrom_cons] at hl
    rw [lastFrom_cons]
    exact ih hl
  | keep c t u hc h ih =>
    intro p hl
    rw [lastFrom_cons] at hl ⊢
    exact ih hl

/-- A word of a text with a quote between its quotes, followed by anything, is not read as itself. -/
theorem inner_first {u rest : Bytes} (hu : chQuote ∈ u) (hl : lastFrom chQuote u ≠ chBackslash) {l c : Nat} {ts : List Token}
    {err : Option (Nat × Nat)} {s : Bytes} (hs : s = chQuote :: (u ++ chQuote :: rest)) (h : Lexes l c s ts err) :
    ts = [] ∨ ∃ t ts', ts = t :: ts' ∧ t.l = l ∧ t.t = .value ∧ t.v ≠ chQuote :: (u ++ [chQuote]) := by
  cases h with
  | done => cases hs
  | blank _ _ x r _ _ hx _ =>
    injection hs with hs _
    subst hs
    rcases hx with h | h <;> cases h
  | eol _ _ raw r _ _ hraw _ =>
    rcases hraw with rfl | rfl | ⟨rfl, -⟩ <;> (injection hs with hs _; cases hs)
  | comment _ _ v r _ _ _ _ _ => injection hs with hs _; cases hs
  | bare _ _ v r _ _ hne hq _ _ _ _ =>
    cases v with
    | nil => exact absurd rfl hne
    | cons x v =>
      injection hs with hs _
      subst hs
      exact absurd rfl hq
  | quoted _ _ body r ts _ hbody hlast _ =>
    refine .inr ⟨_, _, rfl, rfl, rfl, fun he => ?_⟩
    injection hs with _ hs
    have he' : unescapeQuotes body = u := by
      injection he with _ he
      exact List.append_inj_left' he rfl
    have hun := unescaped_unescapeQuotes body
    rw [he'] at hun
    have h1 := CliSpec.unescaped_length hun hbody (CliSpec.noQuote_head hbody (by decide))
    have h2 : 0 < u.count 34 := List.count_pos_iff.2 hu
    have h3 : ∃ z, body = u ++ chQuote :: z := by
      rcases List.append_eq_append_iff.1 hs with ⟨z, h4, h5⟩ | ⟨z, h4, h5⟩
      · have := congrArg List.length h4
        rw [List.length_append] at this
        omega
      · cases z with
        | nil => rw [h4] at h1; simp at h1; omega
        | cons x z =>
          injection h5 with h5 _
          subst h5
          exact ⟨z, h4⟩
    obtain ⟨z, rfl⟩ := h3
    exact hl (noQuote_last u _ _ hbody)
  | unterminated => exact .inl rfl

/-! ## Rows in front of anything -/

theorem lexes_before {s : Bytes} {ws : List Bytes} (h : Row s ws) (l : Nat) (tail : Bytes) (ht : AtEndOr Break tail) : ∀ c,
    ∃ pre c', tokenKeys pre = ws.map (fun v => (l, v, TokenType.value)) ∧
      ∀ us err, Lexes l c' tail us err → Lexes l c (s ++ tail) (pre ++ us) err := by
  induction h with
  | nil => exact fun c => ⟨[], c, rfl, fun us _ h => h⟩
  | blank t ws h ih =>
    intro c
    obtain ⟨pre, c', h1, h2⟩ := ih (c + 1)
    exact ⟨pre, c', h1, fun us err hu => .blank _ _ _ _ _ _ (.inl rfl) (h2 us err hu)⟩
  | word raw v t ws hw hst h ih =>
    intro c
    have hstop : AtEndOr Stop (t ++ tail) := by
      rcases hst with rfl | hst
      · rcases ht with h | ⟨x, y, h, hx⟩
        · exact .inl h
        · exact .inr ⟨x, y, h, .inr hx⟩
      · cases t with
        | nil => simp at hst
        | cons x t =>
          simp only [List.head?_cons, Option.some.injEq] at hst
          subst hst
          exact .inr ⟨_, _, rfl, .inl (.inl rfl)⟩
    cases hw with
    | bare _ hne hq hsl hv =>
      obtain ⟨pre, c', h1, h2⟩ := ih (c + raw.length)
      refine ⟨⟨raw, l, c, c + raw.length, .value⟩ :: pre, c', ?_, fun us err hu => ?_⟩
      · show (l, raw, TokenType.value) :: tokenKeys pre = _
        rw [h1]; rfl
      · rw [List.append_assoc]
        exact .bare l c raw (t ++ tail) (pre ++ us) err hne hq hsl hv hstop (h2 us err hu)
    | quoted body u hu hb hl =>
      obtain ⟨pre, c', h1, h2⟩ := ih (c + (body.length + 2))
      refine ⟨⟨chQuote :: (unescapeQuotes body ++ [chQuote]), l, c, c + (body.length + 2), .value⟩ :: pre, c', ?_, fun us err hus => ?_⟩
      · show (l, _, TokenType.value) :: tokenKeys pre = _
        rw [h1, ← unescape_eq hu]; rfl
      · have := Lexes.quoted l c body (t ++ tail) (pre ++ us) err hb hl (h2 us err hus)
        simpa using this
  | remark r hr =>
    intro c
    refine ⟨[⟨r, l, c, c + (r.length + 2), .comment⟩], c + (r.length + 2), rfl, fun us err hu => ?_⟩
    exact .comment l c r tail us err hr ht hu

/-- Printed lines in front of anything. -/
theorem lexes_rows_before {ss : List Bytes} {vs : List (List Bytes)} (h : Rows ss vs) : ∀ (l : Nat) (tail : Bytes) (us : List Token)
    (err : Option (Nat × Nat)), Lexes (l + vs.length) 0 tail us err →
    ∃ pre, tokenKeys pre = lineKeys l vs ∧ Lexes l 0 ((ss.flatMap fun s => s ++ [chLF]) ++ tail) (pre ++ us) err := by
  induction h with
  | nil => exact fun l tail us err h => ⟨[], rfl, h⟩
  | cons s ws ss vs hw h' ih =>
    intro l tail us err hu
    obtain ⟨pre, h1, h2⟩ := ih (l + 1) tail us err (by
      rw [List.length_cons, ← Nat.add_assoc, Nat.add_right_comm] at hu
      exact hu)
    obtain ⟨pre', c', h4, h5⟩ := lexes_before hw l (chLF :: ((ss.flatMap fun s => s ++ [chLF]) ++ tail)) (.inr ⟨_, _, rfl, .inr rfl⟩) 0
    refine ⟨pre' ++ ⟨[chLF], l, c', c' + 1, .eol⟩ :: pre, ?_, ?_⟩
    · rw [tokenKeys_append, h4]
      show _ ++ (l, [chLF], TokenType.eol) :: tokenKeys pre = _
      rw [h1]; rfl
    · rw [List.flatMap_cons, List.append_assoc, List.append_assoc, List.append_assoc]
      exact h5 _ err (.eol l c' [chLF] _ _ err (.inl rfl) h2)

theorem lexes_word_before {raw v tail : Bytes} (hw : Writes raw v) (ht : AtEndOr Stop tail) (l c : Nat) :
    ∃ t c', t.l = l ∧ t.v = v ∧ t.t = .value ∧ ∀ us err, Lexes l c' tail us err → Lexes l c (raw ++ tail) (t :: us) err := by
  cases hw with
  | bare _ hne hq hsl hv =>
    exact ⟨⟨raw, l, c, c + raw.length, .value⟩, c + raw.length, rfl, rfl, rfl, fun us err hu => .bare l c raw tail us err hne hq hsl hv ht hu⟩
  | quoted body u hu hb hl =>
    refine ⟨⟨chQuote :: (unescapeQuotes body ++ [chQuote]), l, c, c + (body.length + 2), .value⟩, c + (body.length + 2), rfl, ?_, rfl, fun us err hus => ?_⟩
    · rw [← unescape_eq hu]
    · have := Lexes.quoted l c body tail us err hb hl hus
      simpa using this

/-- Words with a space behind each, in front of anything. -/
theorem lexes_words_before (l : Nat) (tail : Bytes) : ∀ {ws : List Bytes}, (∀ w ∈ ws, Writes w w) → ∀ c,
    ∃ pre c', tokenKeys pre = ws.map (fun v => (l, v, TokenType.value)) ∧
      ∀ us err, Lexes l c' tail us err → Lexes l c ((ws.flatMap fun w => w ++ [chSpace]) ++ tail) (pre ++ us) err := by
  intro ws
  induction ws with
  | nil => exact fun _ c => ⟨[], c, rfl, fun us _ h => h⟩
  | cons w ws ih =>
    intro h c
    obtain ⟨t, c1, h1, h2, h3, h4⟩ := lexes_word_before (h w (by simp)) (tail := chSpace :: ((ws.flatMap fun w => w ++ [chSpace]) ++ tail))
      (.inr ⟨_, _, rfl, .inl (.inl rfl)⟩) l c
    obtain ⟨pre, c', h5, h6⟩ := ih (fun w hw => h w (by simp [hw])) (c1 + 1)
    refine ⟨t :: pre, c', ?_, fun us err hu => ?_⟩
    · have : tokenKeys (t :: pre) = (t.l, t.v, t.t) :: tokenKeys pre := by simp [tokenKeys, h3]
      rw [this, h5, h1, h2, h3]; rfl
    · have := h4 _ err (.blank _ _ _ _ _ _ (.inl rfl) (h6 us err hu))
      simpa using this

/-- Tokens are on the line where reading starts, or below. -/
theorem lexes_below {l c : Nat} {s : Bytes} {ts : List Token} {err : Option (Nat × Nat)} (h : Lexes l c s ts err) :
    ∀ t ∈ ts, l ≤ t.l := by
  induction h with
  | done => simp
  | unterminated => simp
  | blank _ _ _ _ _ _ _ _ ih => exact ih
  | eol l _ _ _ _ _ _ _ ih =>
    intro t ht
    rcases List.mem_cons.1 ht with rfl | ht
    · exact Nat.le_refl _
    · exact Nat.le_of_succ_le (ih t ht)
  | comment _ _ _ _ _ _ _ _ _ ih =>
    intro t ht
    rcases List.mem_cons.1 ht with rfl | ht
    · exact Nat.le_refl _
    · exact ih t ht
  | bare _ _ _ _ _ _ _ _ _ _ _ _ ih =>
    intro t ht
    rcases List.mem_cons.1 ht with rfl | ht
    · exact Nat.le_refl _
    · exact ih t ht
  | quoted _ _ _ _ _ _ _ _ _ ih =>
    intro t ht
    rcases List.mem_cons.1 ht with rfl | ht
    · exact Nat.le_refl _
    · exact ih t ht

/-! ## Lists of instructions -/

theorem shifted_empty : ∀ (k : Nat) (qs : List (List Op)), k ≤ qs.length →
    (∀ i < k, (Op.empty :: qs.flatten)[i]? = some .empty → qs[i]? = some [.empty]) →
    (Op.empty :: qs.flatten)[k]? = some .empty := by
  intro k
  induction k with
  | zero => intro qs _ _; rfl
  | succ k ih =>
    intro qs hk h
    cases qs with
    | nil => simp at hk
    | cons q qs =>
      have h0 := h 0 (by omega) rfl
      simp only [List.getElem?_cons_zero, Option.some.injEq] at h0
      subst h0
      simp only [List.flatten_cons, List.cons_append, List.nil_append, List.getElem?_cons_succ]
      refine ih qs (by simpa using hk) fun i hi he => ?_
      have := h (i + 1) (by omega) (by simpa using he)
      simpa using this

theorem head_at : ∀ (k : Nat) (qs : List (List Op)) (o : Op), k < qs.length →
    (∀ q ∈ qs, ∃ x, q = [x] ∨ q = [x, .empty]) → (∀ i < k, qs.flatten[i]? = some .empty → qs[i]? = some [.empty]) →
    qs.flatten[k]? = some o → o ≠ .empty → ∃ more, qs[k]? = some (o :: more) := by
  intro k
  induction k with
  | zero =>
    intro qs o hk hq _ ho _
    cases qs with
    | nil => simp at hk
    | cons q qs =>
      obtain ⟨x, rfl | rfl⟩ := hq q (by simp)
      · simp at ho; subst ho; exact ⟨[], rfl⟩
      · simp at ho; subst ho; exact ⟨[.empty], rfl⟩
  | succ k ih =>
    intro qs o hk hq he ho hne
    cases qs with
    | nil => simp at hk
    | cons q qs =>
      obtain ⟨x, rfl | rfl⟩ := hq q (by simp)
      · simp only [List.flatten_cons, List.cons_append, List.nil_append, List.getElem?_cons_succ] at ho ⊢
        refine ih qs o (by simpa using hk) (fun q hm => hq q (by simp [hm])) (fun i hi hi' => ?_) ho hne
        have := he (i + 1) (by omega) (by simpa using hi')
        simpa using this
      · exfalso
        simp only [List.flatten_cons, List.cons_append, List.nil_append, List.getElem?_cons_succ] at ho
        rw [shifted_empty k qs (by simp at hk; omega) fun i hi hi' => by
          have := he (i + 1) (by omega) (by simpa using hi')
          simpa using this] at ho
        injection ho with ho
        exact hne ho.symm

end Teal
