import Verif.Lemmas.WireOut
import Verif.Props.Actions
import Verif.Props.Labels
import Verif.Lemmas.Quoted
import Verif.Lemmas.Label

/-!
# UTF-8 through the server
-/

namespace Teal.WireSpec

open Teal Teal.Spec Teal.JsonSpec Teal.Props

/-! ## Cutting -/

theorem utf8_shape (n : Nat) (hn : Scalar n) : (∃ c : UInt8, c < 128 ∧ utf8 n = [c]) ∨ (∀ c ∈ utf8 n, 128 ≤ c) ∧ utf8 n ≠ [] := by
  have hb : ∀ m : Nat, 128 ≤ m → m < 256 → (128 : UInt8) ≤ m.toUInt8 := by
    intro m h1 h2
    rw [UInt8.le_iff_toNat_le]
    simp [Nat.toUInt8, UInt8.toNat_ofNat']; omega
  have hlt : n < 0x110000 := by rcases hn with h | h <;> omega
  unfold utf8
  split
  · refine .inl ⟨_, ?_, rfl⟩
    rw [UInt8.lt_iff_toNat_lt]
    simp [Nat.toUInt8, UInt8.toNat_ofNat']; omega
  · right
    split
    · refine ⟨?_, by simp⟩
      intro c hc
      simp only [List.mem_cons, List.not_mem_nil, or_false] at hc
      rcases hc with rfl | rfl <;> exact hb _ (by omega) (by omega)
    · split
      · refine ⟨?_, by simp⟩
        intro c hc
        simp only [List.mem_cons, List.not_mem_nil, or_false] at hc
        rcases hc with rfl | rfl | rfl <;> exact hb _ (by omega) (by omega)
      · refine ⟨?_, by simp⟩
        intro c hc
        simp only [List.mem_cons, List.not_mem_nil, or_false] at hc
        rcases hc with rfl | rfl | rfl | rfl <;> exact hb _ (by omega) (by omega)

theorem utf8_cut {s : Bytes} (h : Utf8 s) : ∀ {a b : Bytes} {c : UInt8}, s = a ++ c :: b → c < 128 → Utf8 a ∧ Utf8 b := by
  induction h with
  | nil => intro a b c e; simp at e
  | @cons n s hn hs ih =>
    intro a b c e hc
    rcases utf8_shape n hn with ⟨d, hd, e'⟩ | ⟨hd, hne⟩
    · rw [e'] at e
      cases a with
      | nil => simp only [List.singleton_append, List.nil_append, List.cons.injEq] at e; rw [← e.2]; exact ⟨.nil, hs⟩
      | cons x a =>
        simp only [List.singleton_append, List.cons_append, List.cons.injEq] at e
        obtain ⟨h1, h2⟩ := ih e.2 hc
        refine ⟨?_, h2⟩
        rw [← e.1]
        have := Utf8.cons hn h1
        rw [e'] at this
        exact this
    · rcases List.append_eq_append_iff.1 e with ⟨m, rfl, hm⟩ | ⟨m, hm, hm'⟩
      · obtain ⟨h1, h2⟩ := ih hm hc
        exact ⟨.cons hn h1, h2⟩
      · cases m with
        | nil =>
          simp only [List.append_nil, List.nil_append] at hm hm'
          obtain ⟨-, h2⟩ := ih (a := []) hm'.symm hc
          refine ⟨?_, h2⟩
          rw [← hm]
          have := Utf8.cons hn .nil
          simpa using this
        | cons x m =>
          simp only [List.cons_append, List.cons.injEq] at hm'
          have : (128 : UInt8) ≤ x := hd x (by rw [hm]; simp)
          rw [← hm'.1] at this
          exact absurd hc (UInt8.not_lt.2 this)

theorem utf8_tail {c : UInt8} {s : Bytes} (h : Utf8 (c :: s)) (hc : c < 128) : Utf8 s := (utf8_cut h (a := []) rfl hc).2

theorem utf8_skip {raw s : Bytes} (hr : ∀ c ∈ raw, c < 128) (h : Utf8 (raw ++ s)) : Utf8 s := by
  induction raw with
  | nil => exact h
  | cons c raw ih => exact ih (fun x hx => hr x (by simp [hx])) (utf8_tail h (hr c (by simp)))

/-- A text that goes on with an ASCII character or ends. -/
theorem utf8_before {v rest : Bytes} {P : UInt8 → Prop} (hP : ∀ c, P c → c < 128) (h : Utf8 (v ++ rest)) (hr : AtEndOr P rest) : Utf8 v ∧ Utf8 rest := by
  rcases hr with rfl | ⟨c, t, rfl, hc⟩
  · rw [List.append_nil] at h; exact ⟨h, .nil⟩
  · obtain ⟨h1, h2⟩ := utf8_cut h rfl (hP c hc)
    exact ⟨h1, utf8_append (ascii_utf8 (s := [c]) (by simpa using hP c hc)) h2⟩

theorem unescape_high {u s : Bytes} (h : ∀ c ∈ u, 128 ≤ c) : unescapeQuotes (u ++ s) = u ++ unescapeQuotes s := by
  induction u with
  | nil => rfl
  | cons c u ih =>
    have hc : c ≠ chBackslash := by
      rintro rfl
      have := h chBackslash (by simp)
      exact absurd this (by decide)
    have := ih fun x hx => h x (by simp [hx])
    cases hs : u ++ s with
    | nil =>
      rw [hs] at this
      simp only [List.append_eq_nil_iff] at hs
      obtain ⟨rfl, rfl⟩ := hs
      simp [unescapeQuotes]
    | cons d t =>
      rw [hs] at this
      rw [List.cons_append, hs, unescapeQuotes, if_neg (by simp [hc]), this]; rfl

theorem unescape_utf8 {s : Bytes} (h : Utf8 s) : Utf8 (unescapeQuotes s) := by
  suffices ∀ (n : Nat) (s : Bytes), s.length = n → Utf8 s → Utf8 (unescapeQuotes s) from this _ s rfl h
  intro n
  induction n using Nat.strongRecOn with
  | _ n ih =>
  intro s hl h
  cases h with
  | nil => exact .nil
  | @cons m s hm hs =>
    rcases utf8_shape m hm with ⟨c, hc, e⟩ | ⟨hd, hne⟩
    · rw [e]
      rw [e] at hl
      cases s with
      | nil => exact utf8_single hc .nil
      | cons d t =>
        show Utf8 (unescapeQuotes (c :: d :: t))
        rw [unescapeQuotes]
        split
        · rename_i h
          exact utf8_single (by decide) (ih _ (by simp at hl; omega) t rfl (utf8_tail hs (by rw [h.2]; decide)))
        · exact utf8_single hc (ih _ (by rw [← hl]; simp) (d :: t) rfl hs)
    · rw [unescape_high hd]
      refine .cons hm (ih _ ?_ s rfl hs)
      rw [← hl, List.length_append]
      have := List.length_pos_iff.2 hne
      omega

/-- The tokens of a UTF-8 text. -/
theorem lexes_utf8 {l c : Nat} {src : Bytes} {ts : List Token} {err : Option (Nat × Nat)} (h : Lexes l c src ts err) (hu : Utf8 src) :
    ∀ t ∈ ts, Utf8 t.v := by
  have hst : ∀ x, Spec.Stop x → x < 128 := by
    rintro x ((rfl | rfl) | (rfl | rfl)) <;> decide
  have hbr : ∀ x, Break x → x < 128 := fun x h => hst x (.inr h)
  induction h with
  | done => simp
  | blank l c x rest ts err hx h ih => exact ih (utf8_tail hu (hst x (.inl hx)))
  | eol l c raw rest ts err hraw h ih =>
    have hr : ∀ x ∈ raw, x < 128 := by
      rcases hraw with rfl | rfl | ⟨rfl, -⟩ <;> decide
    intro t ht
    rcases List.mem_cons.1 ht with rfl | ht
    · exact ascii_utf8 hr
    · exact ih (utf8_skip hr hu) t ht
  | comment l c v rest ts err hv hrest h ih =>
    obtain ⟨h1, h2⟩ := utf8_before hbr (utf8_tail (utf8_tail hu (by decide)) (by decide)) hrest
    intro t ht
    rcases List.mem_cons.1 ht with rfl | ht
    · exact h1
    · exact ih h2 t ht
  | bare l c v rest ts err hne hq hsl hv hrest h ih =>
    obtain ⟨h1, h2⟩ := utf8_before hst hu hrest
    intro t ht
    rcases List.mem_cons.1 ht with rfl | ht
    · exact h1
    · exact ih h2 t ht
  | quoted l c body rest ts err hbody hlast h ih =>
    obtain ⟨h1, h2⟩ := utf8_cut (utf8_tail hu (by decide)) rfl (by decide)
    intro t ht
    rcases List.mem_cons.1 ht with rfl | ht
    · exact utf8_single (by decide) (utf8_append (unescape_utf8 h1) (ascii_utf8 (by decide)))
    · exact ih h2 t ht
  | unterminated => simp

theorem tokens_utf8 {src : Bytes} (hu : Utf8 src) : ∀ t ∈ tokens src, Utf8 t.v := by
  obtain ⟨err, h1, -⟩ := readTokens_lexes src
  exact lexes_utf8 h1 hu

/-- The positions of tokens. -/
theorem lexes_bound {l c : Nat} {src : Bytes} {ts : List Token} {err : Option (Nat × Nat)} (h : Lexes l c src ts err) :
    ∀ t ∈ ts, t.l ≤ l + src.length ∧ t.b ≤ c + src.length ∧ t.e ≤ c + src.length := by
  induction h with
  | done => simp
  | blank l c x rest ts err hx h ih => intro t ht; have := ih t ht; simp only [List.length_cons]; omega
  | eol l c raw rest ts err hraw h ih =>
    have hr : 1 ≤ raw.length := by rcases hraw with rfl | rfl | ⟨rfl, -⟩ <;> decide
    intro t ht
    rw [List.length_append]
    rcases List.mem_cons.1 ht with rfl | ht
    · dsimp only; omega
    · have := ih t ht; omega
  | comment l c v rest ts err hv hrest h ih =>
    intro t ht
    simp only [List.length_append, List.length_cons]
    rcases List.mem_cons.1 ht with rfl | ht
    · dsimp only; omega
    · have := ih t ht; omega
  | bare l c v rest ts err hne hq hsl hv hrest h ih =>
    intro t ht
    rw [List.length_append]
    rcases List.mem_cons.1 ht with rfl | ht
    · dsimp only; omega
    · have := ih t ht; omega
  | quoted l c body rest ts err hbody hlast h ih =>
    intro t ht
    simp only [List.length_append, List.length_cons]
    rcases List.mem_cons.1 ht with rfl | ht
    · dsimp only; omega
    · have := ih t ht; omega
  | unterminated => simp

theorem tokens_bound (src : Bytes) : ∀ t ∈ tokens src, t.l ≤ src.length ∧ t.b ≤ src.length ∧ t.e ≤ src.length := by
  obtain ⟨err, h1, -⟩ := readTokens_lexes src
  have := lexes_bound h1
  simpa using this

/-! ## The analysis -/

section
variable {env : Env} {src : Bytes} {r : ProcessResult}

theorem refs_tokens (h : process env src = some r) : ∀ t ∈ r.symbolRefs, t ∈ tokens src := by
  intro t ht
  have ht := (Teal.Lsp.mem_refs h t).1 ht
  exact (mem_words.1 ((Lsp.labelOperands_sublist _).subset ht)).1

theorem symbols_tokens (h : process env src = some r) : ∀ s ∈ r.symbols, ∃ t ∈ tokens src, t.v = s.name ++ [chColon] := by
  intro s hs
  have : (s.name, s.l, s.b, s.e) ∈ r.symbols.map (fun s => (s.name, s.l, s.b, s.e)) := List.mem_map.2 ⟨s, hs, rfl⟩
  rw [C20_symbols env src r h] at this
  obtain ⟨w, hw, he⟩ := List.mem_map.1 this
  obtain ⟨k, -, hk⟩ := List.mem_filterMap.1 hw
  simp only [Prod.mk.injEq] at he
  exact ⟨w, (mem_words.1 (labelWord_some hk).1).1, by rw [← he.1]; exact (labelWord_some hk).2.1⟩

theorem symbols_utf8 (h : process env src = some r) (hu : Utf8 src) : ∀ s ∈ r.symbols, Utf8 s.name := by
  intro s hs
  obtain ⟨t, ht, e⟩ := symbols_tokens h s hs
  have := tokens_utf8 hu t ht
  rw [e] at this
  exact (utf8_cut this rfl (by decide)).1

theorem refs_utf8 (h : process env src = some r) (hu : Utf8 src) : ∀ t ∈ r.symbolRefs, Utf8 t.v :=
  fun t ht => tokens_utf8 hu t (refs_tokens h t ht)

theorem miss_utf8 (h : process env src = some r) (hu : Utf8 src) : ∀ t ∈ r.missRefs, Utf8 t.v :=
  fun t ht => refs_utf8 h hu t ((C21_missing_refs env src r h t).1 ht).1

theorem labels_utf8 (h : process env src = some r) (hu : Utf8 src) {n : Bytes} (hn : Op.label n ∈ r.listing) : Utf8 n := by
  obtain ⟨os, hr, ha⟩ := process_run h
  obtain ⟨lds, -, hl, -, -, hsym, -⟩ := assemble_eq ha
  rw [hl] at hn
  obtain ⟨o, ho, hn⟩ := List.mem_flatMap.1 hn
  obtain ⟨s, line, -, hf⟩ := hr.mem o ho
  have h1 : n ∈ o.ctx.ops.filterMap Op.labelName? := List.mem_filterMap.2 ⟨_, hn, rfl⟩
  rw [hf.defs] at h1
  obtain ⟨t, ht, rfl⟩ := List.mem_map.1 h1
  rw [Option.mem_toList] at ht
  have h2 : ∃ y ∈ r.symbols, y.name = t.v.dropLast := by
    have h3 : (t.v.dropLast, t.l, t.b, t.e) ∈ (os.filterMap (·.sym)).map (fun s => (s.name, s.l, s.b, s.e)) :=
      List.mem_map.2 ⟨_, List.mem_filterMap.2 ⟨o, ho, by rw [hf.sym, ht]; rfl⟩, rfl⟩
    rw [← hsym] at h3
    obtain ⟨y, hy, e⟩ := List.mem_map.1 h3
    exact ⟨y, hy, congrArg Prod.fst e⟩
  obtain ⟨y, hy, e⟩ := h2
  rw [← e]
  exact symbols_utf8 h hu y hy

theorem refers_utf8 (h : process env src = some r) (hu : Utf8 src) {o : Op} (ho : o ∈ r.listing) {n : Bytes} (hn : Refers o n) : Utf8 n := by
  have h1 : n ∈ r.listing.flatMap Op.labels := List.mem_flatMap.2 ⟨o, ho, by cases hn <;> simp [Op.labels, Op.labels?, *]⟩
  rw [Lsp.refs_eq h] at h1
  obtain ⟨t, ht, rfl⟩ := List.mem_map.1 h1
  exact refs_utf8 h hu t ht

/-- The words in diagnostics. -/
theorem kinds_utf8 (h : process env src = some r) (hu : Utf8 src) : ∀ d ∈ r.diagnostics, ∀ s ∈ kindStrings d.kind, Utf8 s := by
  intro d hd s hs
  have hw : ∀ k, ∀ t ∈ words (tokens src) k, Utf8 t.v := fun k t ht => tokens_utf8 hu t (mem_words.1 ht).1
  cases hk : d.kind with
  | lex m => rw [hk] at hs; cases hs
  | mode m => rw [hk] at hs; cases hs
  | version a b => rw [hk] at hs; cases hs
  | parse why =>
    rw [hk] at hs
    cases why with
    | unknownPragma w =>
      rw [List.mem_singleton.1 hs]
      obtain ⟨t, t', rest, e, -, -, rfl, -⟩ := (quotes_at h d.l w).2.1 ⟨d, hd, hk, rfl⟩
      exact hw d.l t' (by rw [e]; simp)
    | unknownOpcode w =>
      rw [List.mem_singleton.1 hs]
      obtain ⟨t, rest, e, -, rfl, -⟩ := (quotes_at h d.l w).1.1 ⟨d, hd, hk, rfl⟩
      exact hw d.l t (by rw [e]; simp)
    | _ => cases hs
  | lint rule =>
    obtain ⟨k, hm, -⟩ := (lint_diag h rule d).1 ⟨hd, hk⟩
    rw [hk] at hs
    cases rule with
    | duplicateLabel n =>
      rw [List.mem_singleton.1 hs]
      obtain ⟨_, h1, -⟩ := (C27_duplicate_labels env.maps r.listing k n).1.1 hm
      exact labels_utf8 h hu (List.mem_of_getElem? h1)
    | unusedLabel n =>
      rw [List.mem_singleton.1 hs]
      obtain ⟨h1, -⟩ := (C28_unused_labels env.maps r.listing k n).1.1 hm
      exact labels_utf8 h hu (List.mem_of_getElem? h1)
    | missingLabel n =>
      rw [List.mem_singleton.1 hs]
      obtain ⟨p, h1, h2, -⟩ := (C21_missing_rule env.maps r.listing k n).1 hm
      exact refers_utf8 h hu (List.mem_of_getElem? h1) h2
    | _ => cases hs

theorem redundant_utf8 (h : process env src = some r) (hu : Utf8 src) : ∀ d ∈ r.redundants, Utf8 d.text := by
  intro d hd
  rw [Lsp.process_redundants h] at hd
  cases d with
  | label i n =>
    obtain ⟨h1, -⟩ := (C28_unused_labels env.maps r.listing i n).1.1 ((C28_redundant_lines env.maps r.listing i n).1.1 hd)
    exact utf8_append (utf8_append (ascii_utf8 (by decide)) (labels_utf8 h hu (List.mem_of_getElem? h1))) (ascii_utf8 (by decide))
  | b i => exact ascii_utf8 (show ∀ c ∈ b!"Remove b call", c < 128 by decide)

theorem formatUint_utf8 (n : Nat) : Utf8 (formatUint n) := ascii_utf8 (decimal_number (formatUint_decimal n)).2

/-- Names in tables. -/
theorem rows_ascii (f : FieldReader) : ∀ s ∈ f.rows, ∀ c ∈ f.table.str s.1.field, c < 128 := by
  cases f with
  | group g => cases g <;> decide +kernel
  | txn c => cases c <;> decide +kernel

theorem argFieldName_utf8 (t : ArgType) (v : Int) : Utf8 (argFieldName t v) := by
  unfold argFieldName
  split
  · split
    · rename_i r h
      obtain ⟨s, hs, e⟩ := List.any_eq_true.1 h
      have e : (s.1.field : Int) = v := by simpa using e
      subst e
      exact ascii_utf8 (rows_ascii r s hs)
    · exact .nil
  · exact .nil

theorem opNames_ascii : ∀ e ∈ opsList, ∀ c ∈ e.name, c < 128 := by decide +kernel

theorem consts_ascii : (∀ p ∈ (txnTypeMap typeNameDescriptions).entries, ∀ c ∈ p.1, c < 128) ∧
    ∀ p ∈ onCompletionMap.entries, ∀ c ∈ p.1, c < 128 := by decide +kernel

theorem intercalate_utf8 {sep : Bytes} (hs : Utf8 sep) {l : List Bytes} (h : ∀ x ∈ l, Utf8 x) : Utf8 (sep.intercalate l) := by
  induction l with
  | nil => exact .nil
  | cons a l ih =>
    cases l with
    | nil => simpa [List.intercalate] using h a (by simp)
    | cons b l =>
      have : sep.intercalate (a :: b :: l) = a ++ (sep ++ sep.intercalate (b :: l)) := by
        simp [List.intercalate, List.intersperse]
      rw [this]
      exact utf8_append (h a (by simp)) (utf8_append hs (ih fun x hx => h x (by simp only [List.mem_cons] at hx ⊢; exact .inr hx)))

theorem docs_utf8 (h : process env src = some r) (hu : Utf8 src) : ∀ s ∈ r.symbols, Utf8 s.docs := by
  intro s hs
  obtain ⟨cs, -, ⟨j, -, -, -, hc⟩, hd, -⟩ := (symbol_facts h).1 s hs
  rw [hd]
  refine intercalate_utf8 (ascii_utf8 (by decide)) ?_
  intro x hx
  rw [hc] at hx
  obtain ⟨k, -, hx⟩ := List.mem_flatMap.1 hx
  unfold ownComment at hx
  split at hx
  · obtain ⟨t, ht, rfl⟩ := List.mem_map.1 (List.mem_filter.1 hx).1
    exact tokens_utf8 hu t (mem_comments.1 ht).1
  · cases hx

theorem argVals_utf8 (h : process env src = some r) (hu : Utf8 src) (order : List ArgVal → List ArgVal) (ho : ∀ l, (order l).Perm l)
    (a : ArgInfo) : ∀ v ∈ argVals order r a, Utf8 v.name ∧ Utf8 v.docs := by
  intro v hv
  unfold argVals at hv
  split at hv
  · obtain ⟨s, hs, rfl⟩ := List.mem_map.1 hv
    exact ⟨symbols_utf8 h hu s hs, docs_utf8 h hu s hs⟩
  · rcases List.mem_append.1 hv with hv | hv
    · obtain ⟨p, hp, rfl⟩ := List.mem_map.1 ((ho _).mem_iff.1 hv)
      exact ⟨ascii_utf8 (consts_ascii.1 p (List.mem_filter.1 hp).1), .nil⟩
    · obtain ⟨p, hp, rfl⟩ := List.mem_map.1 ((ho _).mem_iff.1 hv)
      exact ⟨ascii_utf8 (consts_ascii.2 p hp), .nil⟩
  · obtain ⟨p, hp, rfl⟩ := List.mem_map.1 ((ho _).mem_iff.1 hv)
    exact ⟨ascii_utf8 (rows_ascii _ p (List.mem_filter.1 hp).1), .nil⟩
  · cases hv

theorem completions_utf8 (h : process env src = some r) (hu : Utf8 src) (ch : Lsp.Choice) {pos : Lsp.Pos} {cs : List Lsp.Completion}
    (hc : Lsp.completions ch r pos = some cs) : ∀ c ∈ cs, Utf8 (label c) ∧ Utf8 (comment c) := by
  have hops : ∀ pre, ∀ c ∈ [Lsp.Completion.snippet b!"soc", .snippet b!"func"] ++ ch.ops (Lsp.opCompletions r pre), Utf8 (label c) ∧ Utf8 (comment c) := by
    intro pre c hc
    rcases List.mem_append.1 hc with hc | hc
    · simp only [List.mem_cons, List.not_mem_nil, or_false] at hc
      rcases hc with rfl | rfl <;> exact ⟨ascii_utf8 (by decide), .nil⟩
    · have hc := (ch.opsPerm _).mem_iff.1 hc
      unfold Lsp.opCompletions at hc
      obtain ⟨n, hn, rfl⟩ := List.mem_map.1 hc
      have hn := List.mem_eraseDups.1 (List.mem_filter.1 hn).1
      obtain ⟨e, he, rfl⟩ := List.mem_map.1 hn
      exact ⟨ascii_utf8 (opNames_ascii e he), .nil⟩
  have hempty : ∀ c ∈ [Lsp.Completion.empty], Utf8 (label c) ∧ Utf8 (comment c) := by
    intro c hc
    rw [List.mem_singleton.1 hc]
    exact ⟨.nil, .nil⟩
  unfold Lsp.completions at hc
  split at hc
  · cases hc
  · dsimp only at hc
    split at hc
    · injection hc with hc; subst hc; exact hops []
    · split at hc
      · injection hc with hc; subst hc; exact hops _
      · split at hc
        · cases hc
        · injection hc with hc; subst hc; exact hempty
        · injection hc with hc
          subst hc
          split
          · exact hempty
          · intro c hc
            obtain ⟨v, hv, rfl⟩ := List.mem_map.1 hc
            exact argVals_utf8 h hu ch.vals ch.valsPerm _ v hv

theorem hints_utf8 {rg : Range} {hs : List NamedHint × List DecodedHint} (hh : Teal.inlayHints r rg = some hs) :
    (∀ x ∈ hs.1, Utf8 x.name) ∧ ∀ x ∈ hs.2, ∀ c ∈ x.value, c < 128 := by
  unfold Teal.inlayHints at hh
  split at hh
  · cases hh
  · simp only [Option.some.injEq] at hh
    subst hh
    refine ⟨?_, ?_⟩
    · intro x hx
      obtain ⟨_, hl, hx⟩ := List.mem_flatMap.1 hx
      obtain ⟨ln, -, rfl⟩ := List.mem_map.1 hl
      unfold lineHints at hx
      dsimp only at hx
      split at hx
      · cases hx
      · obtain ⟨p, -, hx⟩ := List.mem_filterMap.1 hx
        unfold namedHint at hx
        split at hx
        · cases hx
        · split at hx
          · cases hx
          · split at hx
            · cases hx
            · dsimp only at hx
              split at hx
              · cases hx
              · cases hx; exact argFieldName_utf8 _ _
    · intro x hx
      obtain ⟨_, hl, hx⟩ := List.mem_flatMap.1 hx
      obtain ⟨ln, -, rfl⟩ := List.mem_map.1 hl
      obtain ⟨p, -, hx⟩ := List.mem_filterMap.1 hx
      unfold decodedHint at hx
      split at hx
      · cases hx
      · split at hx
        · split at hx
          · cases hx
          · split at hx
            · rename_i hp
              cases hx
              intro c hc
              have := List.all_eq_true.1 hp c hc
              simp only [Bool.and_eq_true, decide_eq_true_eq] at this
              exact UInt8.lt_of_le_of_lt this.2 (by decide)
            · cases hx
        · cases hx

theorem escape_ascii {v : Bytes} (h : ∀ c ∈ v, c < 128) : ∀ c ∈ Lsp.escapeQuotes v, c < 128 := by
  intro c hc
  unfold Lsp.escapeQuotes at hc
  obtain ⟨d, hd, hc⟩ := List.mem_flatMap.1 hc
  split at hc
  · simp only [List.mem_cons, List.not_mem_nil, or_false] at hc
    rcases hc with rfl | rfl <;> decide
  · rw [List.mem_singleton.1 hc]; exact h d hd

theorem actions_utf8 (h : process env src = some r) (hu : Utf8 src) {uri : Bytes} (huri : Utf8 uri) {rg : Lsp.Rg} {cs : List Lsp.Action}
    (hc : Lsp.codeActions uri r rg = some cs) : ∀ c ∈ cs, ∀ s ∈ c.title :: c.name :: commandStrings c.command, Utf8 s := by
  obtain ⟨hs, hh, rfl⟩ := Option.map_eq_some_iff.1 hc
  obtain ⟨h1, h2⟩ := hints_utf8 hh
  intro c hc s hs'
  simp only [List.mem_append] at hc
  rcases hc with (((hc | hc) | hc) | hc) | hc <;> obtain ⟨x, hx, rfl⟩ := List.mem_map.1 hc <;>
    simp only [commandStrings, List.mem_cons, List.not_mem_nil, or_false] at hs'
  · have := redundant_utf8 h hu x (List.mem_filter.1 hx).1
    rcases hs' with rfl | rfl | rfl
    · exact this
    · exact this
    · exact huri
  · have := miss_utf8 h hu x (List.mem_filter.1 hx).1
    rcases hs' with rfl | rfl | rfl | rfl
    · exact utf8_append (utf8_append (ascii_utf8 (by decide)) this) (ascii_utf8 (by decide))
    · exact ascii_utf8 (by decide)
    · exact huri
    · exact this
  · rcases hs' with rfl | rfl | rfl | rfl
    · exact utf8_append (utf8_append (ascii_utf8 (by decide)) (h1 x hx)) (ascii_utf8 (by decide))
    · exact ascii_utf8 (by decide)
    · exact huri
    · exact h1 x hx
  · rcases hs' with rfl | rfl | rfl | rfl
    · exact utf8_append (utf8_append (ascii_utf8 (by decide)) (ascii_utf8 (h2 x hx))) (ascii_utf8 (by decide))
    · exact ascii_utf8 (by decide)
    · exact huri
    · exact utf8_single (by decide) (utf8_append (ascii_utf8 (escape_ascii (h2 x hx))) (ascii_utf8 (by decide)))
  · rcases hs' with rfl | rfl | rfl
    · exact utf8_append (ascii_utf8 (by decide)) (formatUint_utf8 _)
    · exact ascii_utf8 (by decide)
    · exact huri

/-- The strings of an answer. -/
theorem answer_utf8 {h : Lsp.Host} (hf : ∀ s, Utf8 s → Utf8 (h.format s)) (hp : process env src = some r) (hu : Utf8 src) (ch : Lsp.Choice)
    (cfg : Lsp.Config) {uri : Bytes} (huri : Utf8 uri) {q : Lsp.Query} (hq : ∀ p n, q = .rename p n → Utf8 n) {a : Lsp.Result}
    (ha : Lsp.answer h ch cfg uri src r q = some a) : ∀ s ∈ resultStrings a, Utf8 s := by
  have hsym := symbols_utf8 hp hu
  have href := refs_utf8 hp hu
  cases q with
  | prepareRename pos =>
    simp only [Lsp.answer, Option.some.injEq] at ha
    subst ha
    split
    · rename_i x _ e
      have : x ∈ r.symbolsWithin pos.range := by rw [e]; simp
      simpa [resultStrings] using hsym x (List.mem_filter.1 this).1
    · split
      · rename_i x _ e
        have : x ∈ r.symbolRefsWithin pos.range := by rw [e]; simp
        simpa [resultStrings] using href x (List.mem_filter.1 this).1
      · simp [resultStrings]
  | rename pos n =>
    simp only [Lsp.answer, Option.some.injEq] at ha
    subst ha
    have hn := hq _ _ rfl
    have hre : ∀ name, ∀ e ∈ Lsp.renameEdits r n name, Utf8 e.newText := by
      intro name e he
      rcases List.mem_append.1 he with he | he <;> obtain ⟨x, -, rfl⟩ := List.mem_map.1 he <;> exact hn
    intro s hs
    rcases List.mem_cons.1 hs with rfl | hs
    · exact huri
    · obtain ⟨e, he, rfl⟩ := List.mem_map.1 hs
      rcases List.mem_append.1 he with he | he <;> obtain ⟨x, -, he⟩ := List.mem_flatMap.1 he <;> exact hre _ e he
  | inlineValue rg => cases ha; simpa [resultStrings] using ascii_utf8 (by decide)
  | codeLens => cases ha; simp [resultStrings]
  | inlayHint rg =>
    obtain ⟨hs, hh, rfl⟩ := Option.map_eq_some_iff.1 ha
    obtain ⟨h1, h2⟩ := hints_utf8 hh
    intro s hs'
    obtain ⟨x, hx, rfl⟩ := List.mem_map.1 hs'
    rcases List.mem_append.1 hx with hx | hx <;> split at hx
    · obtain ⟨y, hy, rfl⟩ := List.mem_map.1 hx; exact h1 y hy
    · cases hx
    · obtain ⟨y, hy, rfl⟩ := List.mem_map.1 hx; exact ascii_utf8 (h2 y hy)
    · cases hx
  | completion pos =>
    obtain ⟨cs, hc, rfl⟩ := Option.map_eq_some_iff.1 ha
    intro s hs
    obtain ⟨c, hc', hs⟩ := List.mem_flatMap.1 hs
    simp only [List.mem_cons, List.not_mem_nil, or_false] at hs
    have := completions_utf8 hp hu ch hc c hc'
    rcases hs with rfl | rfl
    · exact this.1
    · exact this.2
  | hover pos =>
    obtain ⟨d, -, rfl⟩ := Option.map_eq_some_iff.1 ha
    cases d <;> simp [resultStrings]
  | definition pos =>
    cases ha
    intro s hs
    simp only [resultStrings, List.map_map] at hs
    obtain ⟨x, -, rfl⟩ := List.mem_map.1 hs
    exact huri
  | formatting => cases ha; simpa [resultStrings] using hf _ hu
  | signatureHelp pos =>
    simp only [Lsp.answer] at ha
    split at ha
    · cases ha; simp [resultStrings]
    · split at ha
      · obtain ⟨d, -, rfl⟩ := Option.map_eq_some_iff.1 ha; simp [resultStrings]
      · cases ha; simp [resultStrings]
  | codeAction rg =>
    obtain ⟨cs, hc, rfl⟩ := Option.map_eq_some_iff.1 ha
    intro s hs
    obtain ⟨c, hc', hs⟩ := List.mem_flatMap.1 hs
    exact actions_utf8 hp hu huri hc c hc' s hs
  | documentHighlight pos => cases ha; simp [resultStrings]
  | documentSymbol =>
    cases ha
    intro s hs
    simp only [resultStrings, List.map_map] at hs
    obtain ⟨x, hx, rfl⟩ := List.mem_map.1 hs
    exact hsym x hx
  | semanticTokens => cases ha; simp [resultStrings]

/-! ## Numbers in commands -/

theorem minVersion_small : ∀ e ∈ opsList, ∀ m : ProgramMode, e.minVersion m < 2 ^ 64 := by
  intro e he m
  cases m <;> revert e <;> decide +kernel

theorem versions_small (h : process env src = some r) : ∀ v ∈ r.versions, v.version < 2 ^ 64 := by
  intro v hv
  obtain ⟨os, hr, ha⟩ := process_run h
  obtain ⟨lds, -, -, -, -, -, -, -, hvers, -⟩ := assemble_eq ha
  rw [hvers] at hv
  obtain ⟨o, ho, hov⟩ := List.mem_filterMap.1 hv
  obtain ⟨s', line, hline, hf⟩ := hr.mem o ho
  rw [hf.ver] at hov
  cases hi : instrOf line with
  | none => rw [hi] at hov; cases hov
  | some te =>
    rw [hi] at hov
    simp only at hov
    split at hov
    · injection hov with hov
      subst hov
      have he : te.2 ∈ opsList := by
        cases line with
        | nil => cases hi
        | cons t rest =>
          simp only [instrOf] at hi
          split at hi
          · obtain ⟨e, he, rfl⟩ := Option.map_eq_some_iff.1 hi
            exact (opsGet_mem he).1
          · cases hi
      exact minVersion_small _ he _
    · cases hov

theorem breaks_length (s : Bytes) : breaks s ≤ s.length := by
  suffices ∀ (n : Nat) (s : Bytes), s.length ≤ n → breaks s ≤ s.length from this _ s (Nat.le_refl _)
  intro n
  induction n with
  | zero => intro s hs; rw [List.length_eq_zero_iff.1 (Nat.le_zero.1 hs)]; exact Nat.le_refl _
  | succ n ih =>
    intro s hs
    match s with
    | [] => exact Nat.le_refl _
    | [c] => simp only [breaks]; split <;> simp
    | c :: d :: t =>
      simp only [List.length_cons] at hs ⊢
      have h1 := ih t (by omega)
      have h2 := ih (d :: t) (by simp only [List.length_cons]; omega)
      simp only [List.length_cons] at h2
      simp only [breaks]
      split
      · omega
      · split <;> omega

theorem redundants_small (h : process env src = some r) : ∀ d ∈ r.redundants, 0 ≤ d.line ∧ d.line ≤ src.length := by
  intro d hd
  rw [Lsp.process_redundants h] at hd
  obtain ⟨os, hr, ha⟩ := process_run h
  obtain ⟨lds, hl, -⟩ := assemble_eq ha
  have hlt := (lintDiags_some _ _).1 ⟨lds, hl⟩
  have key : ∀ i : Nat, i < (linesOf src).length → i ≤ src.length := by
    intro i hi
    rw [linesOf_length] at hi
    have h1 := lineCount_le src
    have h2 := breaks_length src
    omega
  cases d with
  | label i n =>
    have := hlt _ ((C28_redundant_lines env.maps r.listing i n).1.1 hd)
    exact ⟨Int.natCast_nonneg _, Int.ofNat_le.2 (key i this)⟩
  | b i =>
    have := hlt _ ((C28_redundant_lines env.maps r.listing i []).2.1 hd)
    exact ⟨Int.natCast_nonneg _, Int.ofNat_le.2 (key i this)⟩

theorem actions_fit (h : process env src = some r) (hl : src.length < 2 ^ 63) {uri : Bytes} {rg : Lsp.Rg} {cs : List Lsp.Action}
    (hc : Lsp.codeActions uri r rg = some cs) : ∀ c ∈ cs, Fits c.command := by
  obtain ⟨hs, hh, rfl⟩ := Option.map_eq_some_iff.1 hc
  have hm := Lsp.inlayHints_mem h (rg := rg) hh
  have hfit : ∀ t ∈ tokens src, ∀ s, Fits (.valueReplace uri (Lsp.onLine t.l t.b t.e) s) := by
    intro t ht s i hi
    have := tokens_bound src t ht
    simp only [Lsp.onLine, List.mem_cons, List.not_mem_nil, or_false] at hi
    rcases hi with rfl | rfl | rfl | rfl <;> omega
  intro c hc
  simp only [List.mem_append] at hc
  rcases hc with (((hc | hc) | hc) | hc) | hc <;> obtain ⟨x, hx, rfl⟩ := List.mem_map.1 hc
  · have := redundants_small h x (List.mem_filter.1 hx).1
    simp only [Fits]; omega
  · trivial
  · obtain ⟨⟨w, rest, i, n, hw, hi, -⟩, -⟩ := (hm.1 x.t x.name).1 hx
    refine hfit x.t ?_ _
    have : x.t ∈ words (tokens src) x.t.l := by rw [hw]; exact List.mem_cons_of_mem _ (List.mem_of_getElem? hi)
    exact (mem_words.1 this).1
  · obtain ⟨⟨hw, -⟩, -⟩ := (hm.2 x.t x.value).1 hx
    exact hfit x.t (mem_words.1 hw).1 _
  · exact versions_small h x (List.mem_filter.1 hx).1

end

/-! ## The strings of a message -/

/-- The strings in a message. -/
def callStrings : Lsp.Call → List Bytes
  | .didOpen (.given (uri, text)) => [uri, text]
  | .didChange (.given (uri, texts)) => uri.toList ++ texts.flatMap (·.toList)
  | .executeCommand (.given (some cs)) => cs.flatMap commandStrings
  | .unknownCommand name => [name]
  | .query (.given (uri, .rename _ name)) => [uri, name]
  | .query (.given (uri, _)) => [uri]
  | _ => []

/-- Every string in the value is of the kind. -/
inductive Each (P : Bytes → Prop) : Json → Prop
  | null : Each P .null
  | bool (b : Bool) : Each P (.bool b)
  | num (s : Bytes) : Each P (.num s)
  | str {s : Bytes} : P s → Each P (.str s)
  | arr {vs : List Json} : (∀ v ∈ vs, Each P v) → Each P (.arr vs)
  | obj {ms : List (Bytes × Json)} : (∀ m ∈ ms, Each P m.2) → Each P (.obj ms)

def EachPhrase (P : Bytes → Prop) : Phrase → Prop
  | .value j => Each P j
  | .elements vs => ∀ v ∈ vs, Each P v
  | .members ms => ∀ m ∈ ms, Each P m.2

theorem chars_length {s v : Bytes} (h : Chars False s v) : v.length ≤ s.length := by
  have h4 : ∀ {h : Bytes} {n : Nat}, Hex4 h n → h.length = 4 ∧ n < 65536 := by
    intro h n hx
    have hd : ∀ {c : UInt8} {w : Nat}, HexDigit c w → w < 16 := by
      intro c w h
      cases h <;> omega
    cases hx with
    | mk a b c d =>
      have := hd a; have := hd b; have := hd c; have := hd d
      exact ⟨rfl, by omega⟩
  have h3 : ∀ n, n < 65536 → (utf8 n).length ≤ 3 := by
    intro n hn
    unfold utf8
    split
    · simp
    · split
      · simp
      · simp
  have h5 : ∀ n, (utf8 n).length ≤ 4 := by
    intro n
    unfold utf8
    split
    · simp
    · split
      · simp
      · split <;> simp
  induction h with
  | nil => simp
  | plain hn _ _ _ _ ih => simp only [List.length_append]; omega
  | short he _ ih => simp only [List.length_cons]; omega
  | code hx hn _ ih =>
    have := h3 _ (h4 hx).2
    have := (h4 hx).1
    simp only [List.length_append, List.length_cons]
    omega
  | @pair _ _ m n _ _ hm hn h1 h2 h3 h4 _ ih =>
    have := h5 (0x10000 + (m - 0xD800) * 0x400 + (n - 0xDC00))
    simp only [List.length_append, List.length_cons]
    omega
  | half hl => exact hl.elim
  | stray hl => exact hl.elim

theorem spelled_each {n : Nat} {x : Bytes} {p : Phrase} (h : Spelled False n x p) : ∀ m, x.length ≤ m →
    EachPhrase (fun s => Utf8 s ∧ s.length ≤ m) p := by
  induction h with
  | null => intro m _; exact .null
  | true => intro m _; exact .bool _
  | false => intro m _; exact .bool _
  | num h => intro m _; exact .num _
  | str h =>
    intro m hm
    have := chars_length h
    simp only [List.length_append] at hm
    exact .str ⟨chars_utf8 h, by omega⟩
  | emptyArr _ => intro m _; exact .arr (fun v h => by cases h)
  | arr _ ih => intro m hm; simp only [List.length_append] at hm; exact .arr (ih m (by omega))
  | emptyObj _ => intro m _; exact .obj (fun v h => by cases h)
  | obj _ ih => intro m hm; simp only [List.length_append] at hm; exact .obj (ih m (by omega))
  | element _ _ _ ih =>
    intro m hm v hv
    simp only [List.length_append] at hm
    rw [List.mem_singleton] at hv; subst hv; exact ih m (by omega)
  | elements _ _ _ _ ih1 ih2 =>
    intro m hm v hv
    simp only [List.length_append] at hm
    rcases List.mem_cons.1 hv with rfl | hv
    · exact ih1 m (by omega)
    · exact ih2 m (by omega) v hv
  | member _ hk _ _ _ _ ih =>
    intro m hm v hv
    simp only [List.length_append] at hm
    rw [List.mem_singleton] at hv; subst hv; exact ih m (by omega)
  | members _ hk _ _ _ _ _ ih1 ih2 =>
    intro m hm v hv
    simp only [List.length_append] at hm
    rcases List.mem_cons.1 hv with rfl | hv
    · exact ih1 m (by omega)
    · exact ih2 m (by omega) v hv

theorem spells_each {n : Nat} {x : Bytes} {j : Json} (h : Spells n x j) : Each (fun s => Utf8 s ∧ s.length ≤ x.length) j := by
  obtain ⟨a, t, b, -, h, -, rfl⟩ := h
  exact spelled_each h _ (by simp only [List.length_append]; omega)

section
variable {P : Bytes → Prop}

theorem each_has {ms : List (Bytes × Json)} {k : Bytes} {Q : Json → Prop} (he : Each P (.obj ms)) (h : Has ms k Q) : ∃ v, Each P v ∧ Q v := by
  cases he with
  | obj he =>
    obtain ⟨v, hv, hq⟩ := has_mem h
    exact ⟨v, he _ hv, hq⟩

theorem each_str {ms : List (Bytes × Json)} {k s : Bytes} (he : Each P (.obj ms)) (h : Has ms k (IsStr s)) : P s := by
  obtain ⟨v, hv, rfl⟩ := each_has he h
  cases hv; assumption

theorem each_doc {ms : List (Bytes × Json)} {k s : Bytes} (he : Each P (.obj ms)) (h : Has ms k (IsDoc s)) : P s := by
  obtain ⟨v, hv, _, rfl, h⟩ := each_has he h
  exact each_str hv h

theorem each_changes : ∀ {texts : List Bytes} {v : Json}, Each P v → IsArr (texts.map IsChange) v → ∀ t ∈ texts, P t := by
  intro texts
  induction texts with
  | nil => intro v _ _ t ht; cases ht
  | cons x texts ih =>
    intro v he h t ht
    cases h with
    | cons h hs =>
      cases he with
      | arr he =>
        rcases List.mem_cons.1 ht with rfl | ht
        · obtain ⟨_, rfl, h⟩ := h
          exact each_str (he _ (List.mem_cons_self ..)) h
        · exact ih (.arr fun w hw => he w (by simp [hw])) hs t ht

theorem asks_each {j id : Json} {c : Lsp.Call} (h : Asks j id c) (he : Each P j) : ∀ s ∈ callStrings c, P s := by
  obtain ⟨ms, method, rfl, -, -, -, -, -, h⟩ := h
  cases h with
  | didOpen h =>
    obtain ⟨_, hv, ps, rfl, h⟩ := each_has he h
    obtain ⟨_, hv, ds, rfl, h1, -, h2⟩ := each_has hv h
    intro s hs
    simp only [callStrings, List.mem_cons, List.not_mem_nil, or_false] at hs
    rcases hs with rfl | rfl
    · exact each_str hv h1
    · exact each_str hv h2
  | didChange h =>
    obtain ⟨_, hv, ps, rfl, h1, h2⟩ := each_has he h
    obtain ⟨_, hv1, ds, rfl, h1, -⟩ := each_has hv h1
    obtain ⟨_, hv2, h2⟩ := each_has hv h2
    intro s hs
    simp only [callStrings, Option.toList_some, List.mem_append, List.mem_singleton, List.mem_flatMap, List.mem_map] at hs
    rcases hs with rfl | ⟨_, ⟨t, ht, rfl⟩, hs⟩
    · exact each_str hv1 h1
    · rw [Option.mem_toList] at hs
      cases hs
      exact each_changes hv2 h2 _ ht
  | executeCommand h =>
    obtain ⟨_, hv, ps, rfl, name, h1, h2⟩ := each_has he h
    obtain ⟨_, hv, v, rfl, h2⟩ := each_has hv h2
    have hv : Each P v := by cases hv with | arr hv => exact hv v (by simp)
    intro s hs
    simp only [callStrings, List.flatMap_cons, List.flatMap_nil, List.append_nil] at hs
    cases h2 <;> simp only [commandStrings, List.mem_cons, List.not_mem_nil, or_false] at hs
    · subst hs; exact each_str hv (by assumption)
    · rcases hs with rfl | rfl <;> exact each_str hv (by assumption)
    · subst hs; exact each_str hv (by assumption)
    · rcases hs with rfl | rfl <;> exact each_str hv (by assumption)
    · rcases hs with rfl | rfl <;> exact each_str hv (by assumption)
  | unknownCommand h _ =>
    obtain ⟨_, hv, ps, rfl, h⟩ := each_has he h
    intro s hs
    rw [List.mem_singleton.1 hs]
    exact each_str hv h
  | query hq h =>
    cases hq with
    | rename p name =>
      obtain ⟨_, hv, ps, rfl, h1, -, h2⟩ := each_has he h
      intro s hs
      simp only [callStrings, List.mem_cons, List.not_mem_nil, or_false] at hs
      rcases hs with rfl | rfl
      · exact each_doc hv h1
      · exact each_str hv h2
    | codeAction =>
      obtain ⟨_, hv, ps, rfl, h1, -⟩ := each_has he h
      intro s hs
      rw [List.mem_singleton.1 hs]
      exact each_doc hv h1
    | codeLens | formatting | documentSymbol | semanticTokens =>
      obtain ⟨_, hv, ps, rfl, h1⟩ := each_has he h
      intro s hs
      rw [List.mem_singleton.1 hs]
      exact each_doc hv h1
    | _ =>
      obtain ⟨_, hv, ps, rfl, h1, -⟩ := each_has he h
      intro s hs
      rw [List.mem_singleton.1 hs]
      exact each_doc hv h1
  | _ => intro s hs; cases hs

end

/-! ## Sessions -/

/-- The documents are UTF-8 and short. -/
def CleanState (st : Lsp.State) : Prop :=
  ∀ u d, st.docs u = some d → Utf8 d.s ∧ d.s.length < 2 ^ 63 ∧ ∀ r, d.res = some r → ∃ env, process env d.s = some r

/-- A message the server may send. -/
def CleanSent (x : Lsp.Sent) : Prop := (∀ s ∈ sentStrings x, Utf8 s) ∧ ∀ i cs, x = .reply i (.codeActions cs) → ∀ c ∈ cs, Fits c.command

theorem clean_put {st : Lsp.State} (h : CleanState st) {u : Bytes} {o : Option Lsp.Doc}
    (ho : ∀ d, o = some d → Utf8 d.s ∧ d.s.length < 2 ^ 63 ∧ ∀ r, d.res = some r → ∃ env, process env d.s = some r) : CleanState (st.put u o) := by
  intro v d hd
  simp only [Lsp.State.put] at hd
  split at hd
  · exact ho d hd
  · exact h v d hd

theorem clean_results {h : Lsp.Host} {ch : Lsp.Choice} {st st' : Lsp.State} {uri : Bytes} {d : Lsp.Doc} {r : ProcessResult} (hc : CleanState st)
    (hd : st.docs uri = some d) (hr : Lsp.results h ch st uri d = some (st', r)) : CleanState st' ∧ (∃ env, process env d.s = some r) ∧ st'.config = st.config := by
  obtain ⟨h1, h2, h3⟩ := hc uri d hd
  unfold Lsp.results at hr
  split at hr
  · rename_i e
    cases hr
    exact ⟨hc, h3 _ e, rfl⟩
  · split at hr
    · cases hr
    · rename_i e
      cases hr
      exact ⟨clean_put hc (by rintro _ ⟨⟩; exact ⟨h1, h2, by rintro _ ⟨⟩; exact ⟨_, e⟩⟩), ⟨_, e⟩, rfl⟩

theorem clean_changes (u : Option Bytes) : ∀ (chs : List (Option Bytes)) {st st' : Lsp.State} {b : Bool}, CleanState st →
    (∀ t, some t ∈ chs → Utf8 t ∧ t.length < 2 ^ 63) → Lsp.applyChanges st u chs = some (st', b) → CleanState st' := by
  intro chs
  induction chs with
  | nil => intro st st' b h _ e; cases e; exact h
  | cons c chs ih =>
    intro st st' b h hc e
    rw [Lsp.applyChanges.eq_def] at e
    dsimp only at e
    split at e
    · cases e
    · split at e
      · cases e; exact h
      · split at e
        · cases e
        · refine ih (clean_put h ?_) (fun t ht => hc t (by simp [ht])) e
          rintro d ⟨⟩
          obtain ⟨a, b⟩ := hc _ (List.mem_cons_self ..)
          exact ⟨a, b, by rintro _ ⟨⟩⟩

theorem clean_request {st : Lsp.State} {label uri : Bytes} {es : List Lsp.TextEdit} (h : CleanState st) (hl : Utf8 label) (hu : Utf8 uri) (he : ∀ e ∈ es, Utf8 e.newText) :
    CleanState (Lsp.request st label uri es).st ∧ ∀ x ∈ (Lsp.request st label uri es).sent, CleanSent x := by
  refine ⟨h, ?_⟩
  intro x hx
  rw [List.mem_singleton.1 hx]
  refine ⟨?_, by intro _ _ e; cases e⟩
  intro s hs
  simp only [sentStrings, List.mem_cons] at hs
  rcases hs with rfl | rfl | rfl | hs
  · exact formatUint_utf8 _
  · exact hl
  · exact hu
  · obtain ⟨e, h', rfl⟩ := List.mem_map.1 hs
    exact he e h'

theorem clean_execute {h : Lsp.Host} {ch : Lsp.Choice} {st : Lsp.State} {c : Lsp.Command} {o : Lsp.Step} (hc : CleanState st)
    (hs : ∀ s ∈ commandStrings c, Utf8 s) (ho : Lsp.execute h ch st c = some o) : CleanState o.st ∧ ∀ x ∈ o.sent, CleanSent x := by
  cases c with
  | versionUpdate uri v =>
    rw [Lsp.execute] at ho
    split at ho
    · cases ho; exact ⟨hc, by simp⟩
    · obtain ⟨⟨st', r⟩, hr, rfl⟩ := Option.map_eq_some_iff.1 ho
      refine clean_request (clean_results hc (by assumption) hr).1 (ascii_utf8 (by decide)) (hs _ (by simp [commandStrings])) ?_
      intro e he
      rw [List.mem_singleton.1 he]
      split
      · exact formatUint_utf8 _
      · exact utf8_append (ascii_utf8 (by decide)) (utf8_append (formatUint_utf8 _) (ascii_utf8 (by decide)))
  | valueReplace uri rg v =>
    rw [Lsp.execute] at ho
    split at ho <;> cases ho
    · exact ⟨hc, by simp⟩
    · exact clean_request hc (ascii_utf8 (by decide)) (hs _ (by simp [commandStrings])) (by intro e he; rw [List.mem_singleton.1 he]; exact hs _ (by simp [commandStrings]))
  | lineRemove uri l =>
    rw [Lsp.execute] at ho
    split at ho <;> cases ho
    · exact ⟨hc, by simp⟩
    · exact clean_request hc (ascii_utf8 (by decide)) (hs _ (by simp [commandStrings])) (by intro e he; rw [List.mem_singleton.1 he]; exact .nil)
  | labelRemove uri n =>
    rw [Lsp.execute] at ho
    split at ho
    · cases ho; exact ⟨hc, by simp⟩
    · obtain ⟨⟨st', r⟩, hr, rfl⟩ := Option.map_eq_some_iff.1 ho
      refine clean_request (clean_results hc (by assumption) hr).1 (utf8_append (ascii_utf8 (by decide)) (hs _ (by simp [commandStrings]))) (hs _ (by simp [commandStrings])) ?_
      intro e he
      obtain ⟨x, -, rfl⟩ := List.mem_map.1 he
      exact .nil
  | labelCreate uri n =>
    rw [Lsp.execute] at ho
    split at ho
    · cases ho; exact ⟨hc, by simp⟩
    · obtain ⟨⟨st', r⟩, hr, rfl⟩ := Option.map_eq_some_iff.1 ho
      refine clean_request (clean_results hc (by assumption) hr).1 (utf8_append (ascii_utf8 (by decide)) (hs _ (by simp [commandStrings]))) (hs _ (by simp [commandStrings])) ?_
      intro e he
      rw [List.mem_singleton.1 he]
      exact utf8_append (ascii_utf8 (by decide)) (utf8_append (hs _ (by simp [commandStrings])) (ascii_utf8 (by decide)))

theorem clean_reply {i : Bytes} {r : Lsp.Result} (h : resultStrings r = []) (h' : ∀ cs, r ≠ .codeActions cs) : CleanSent (.reply i r) :=
  ⟨by simp [sentStrings, h], by rintro _ _ ⟨⟩; exact (h' _ rfl).elim⟩

theorem clean_handle {h : Lsp.Host} (hf : ∀ s, Utf8 s → Utf8 (h.format s)) {ch : Lsp.Choice} {st : Lsp.State} {m : Lsp.Msg} {o : Lsp.Step}
    (hc : CleanState st) (hs : ∀ s ∈ callStrings m.call, Utf8 s ∧ s.length < 2 ^ 63) (ho : Lsp.handle h ch st m = some o) :
    CleanState o.st ∧ ∀ x ∈ o.sent, CleanSent x := by
  unfold Lsp.handle at ho
  split at ho
  · cases ho; exact ⟨hc, by simp⟩
  split at ho
  · cases ho; exact ⟨hc, by simp⟩
  · cases ho; exact ⟨hc, by simp⟩
  · cases ho; exact ⟨hc, by simp⟩
  · cases ho
  · rename_i uri text e
    cases ho
    rw [e] at hs
    refine ⟨clean_put hc ?_, by simp⟩
    rintro d ⟨⟩
    obtain ⟨a, b⟩ := hs text (by simp [callStrings])
    exact ⟨a, b, by rintro _ ⟨⟩⟩
  · cases ho; exact ⟨hc, by simp⟩
  · cases ho
  · rename_i uri chs e
    obtain ⟨⟨st', b⟩, hr, rfl⟩ := Option.map_eq_some_iff.1 ho
    rw [e] at hs
    refine ⟨clean_changes uri chs hc ?_ hr, by simp⟩
    intro t ht
    exact hs t (by
      simp only [callStrings]
      exact List.mem_append_right _ (List.mem_flatMap.2 ⟨some t, ht, by simp⟩))
  · cases ho; exact ⟨hc, by simp⟩
  split at ho
  · cases ho; exact ⟨hc, by simp⟩
  unfold Lsp.handleRequest at ho
  split at ho
  · cases ho; exact ⟨hc, by intro x hx; rw [List.mem_singleton.1 hx]; exact clean_reply rfl (by intro _ e; cases e)⟩
  · cases ho; exact ⟨hc, by simp⟩
  · cases ho; exact ⟨hc, by simp⟩
  · cases ho
  · cases ho; exact ⟨clean_put hc (by rintro _ ⟨⟩), by simp⟩
  · cases ho; exact ⟨hc, by simp⟩
  · cases ho
  · rename_i c e
    rw [e] at hs
    refine clean_execute hc ?_ ho
    intro s h'
    exact (hs s (by simpa [callStrings] using h')).1
  · cases ho; exact ⟨hc, by simp⟩
  · rename_i name e
    cases ho
    rw [e] at hs
    refine ⟨hc, ?_⟩
    intro x hx
    rw [List.mem_singleton.1 hx]
    exact ⟨by intro s h'; rw [List.mem_singleton.1 h']; exact (hs _ (by simp [callStrings])).1, by rintro _ _ ⟨⟩⟩
  · cases ho; exact ⟨hc, by simp⟩
  · cases ho
  · rename_i uri q e
    rw [e] at hs
    split at ho
    · cases ho; exact ⟨hc, by simp⟩
    · rename_i d hd
      split at ho
      · cases ho
      · rename_i st' r hr
        obtain ⟨a, ha, rfl⟩ := Option.map_eq_some_iff.1 ho
        obtain ⟨h1, ⟨env, h2⟩, -⟩ := clean_results hc hd hr
        obtain ⟨h3, h4, -⟩ := hc uri d hd
        refine ⟨h1, ?_⟩
        intro x hx
        rw [List.mem_singleton.1 hx]
        refine ⟨?_, ?_⟩
        · refine answer_utf8 hf h2 h3 _ _ ?_ ?_ ha
          · cases q <;> exact (hs uri (by simp [callStrings])).1
          · rintro p n rfl
            exact (hs n (by simp [callStrings])).1
        · rintro i cs e'
          cases e'
          cases q with
          | codeAction rg =>
            obtain ⟨cs', h5, e5⟩ := Option.map_eq_some_iff.1 ha
            cases e5
            exact actions_fit h2 h4 h5
          | inlayHint rg => obtain ⟨_, _, e5⟩ := Option.map_eq_some_iff.1 ha; cases e5
          | completion rg => obtain ⟨_, _, e5⟩ := Option.map_eq_some_iff.1 ha; cases e5
          | hover rg => obtain ⟨d, _, e5⟩ := Option.map_eq_some_iff.1 ha; cases d <;> cases e5
          | prepareRename rg =>
            simp only [Lsp.answer, Option.some.injEq] at ha
            split at ha
            · cases ha
            · split at ha <;> cases ha
          | signatureHelp rg =>
            simp only [Lsp.answer] at ha
            split at ha
            · cases ha
            · split at ha
              · obtain ⟨_, _, e5⟩ := Option.map_eq_some_iff.1 ha; cases e5
              · cases ha
          | _ => cases ha
  · cases ho; exact ⟨hc, by simp⟩
  · cases ho
  · split at ho
    · cases ho; exact ⟨hc, by intro x hx; rw [List.mem_singleton.1 hx]; exact clean_reply rfl (by intro _ e; cases e)⟩
    · rename_i hd
      obtain ⟨⟨st', r⟩, hr, rfl⟩ := Option.map_eq_some_iff.1 ho
      obtain ⟨h1, ⟨env, h2⟩, -⟩ := clean_results hc hd hr
      obtain ⟨h3, -, -⟩ := hc _ _ hd
      refine ⟨h1, ?_⟩
      intro x hx
      rw [List.mem_singleton.1 hx]
      refine ⟨?_, by rintro _ _ ⟨⟩⟩
      intro s hs'
      obtain ⟨y, hy, hs'⟩ := List.mem_flatMap.1 hs'
      obtain ⟨z, hz, rfl⟩ := List.mem_map.1 hy
      exact kinds_utf8 h2 h3 z hz s hs'
  · cases ho; exact ⟨hc, by simp⟩
  · cases ho
    exact ⟨hc, by intro x hx; rw [List.mem_singleton.1 hx]; exact clean_reply rfl (by intro _ e; cases e)⟩
  · cases ho; exact ⟨hc, by simp⟩

theorem clean_run {h : Lsp.Host} (hf : ∀ s, Utf8 s → Utf8 (h.format s)) (ms : List (Lsp.Choice × Lsp.Msg))
    (hs : ∀ m ∈ ms, ∀ s ∈ callStrings m.2.call, Utf8 s ∧ s.length < 2 ^ 63) : ∀ x ∈ (Lsp.run h ms).sent, CleanSent x := by
  suffices ∀ (ms : List (Lsp.Choice × Lsp.Msg)) (s : Lsp.Session), (∀ m ∈ ms, ∀ s ∈ callStrings m.2.call, Utf8 s ∧ s.length < 2 ^ 63) →
      CleanState s.st → (∀ x ∈ s.sent, CleanSent x) → ∀ x ∈ (ms.foldl (Lsp.Session.next h) s).sent, CleanSent x from
    this ms {} hs (by intro u d e; cases e) (by intro x hx; cases hx)
  intro ms
  induction ms with
  | nil => intro s _ _ h; exact h
  | cons m ms ih =>
    intro s hs h1 h2
    rw [List.foldl_cons]
    have : CleanState (Lsp.Session.next h s m).st ∧ ∀ x ∈ (Lsp.Session.next h s m).sent, CleanSent x := by
      unfold Lsp.Session.next
      split
      · exact ⟨h1, h2⟩
      · split
        · exact ⟨h1, h2⟩
        · rename_i e
          obtain ⟨a, b⟩ := clean_handle hf h1 (hs m (by simp)) e
          refine ⟨a, ?_⟩
          intro x hx
          rcases List.mem_append.1 hx with hx | hx
          · exact h2 x hx
          · exact b x hx
    exact ih _ (fun m hm => hs m (by simp [hm])) this.1 this.2

end Teal.WireSpec
