import Verif.Spec.Surplus
import Verif.Props.Process

/-!
# C123: texts with lines that have too many words
-/

namespace Teal.Props

open Teal Teal.Spec

/-- The diagnostics about too many values are those of the lines. -/
theorem overlong_iff {env : Env} {src : Bytes} {r : ProcessResult} {os : List LineOut} (hr : Run env.addrOk {} (linesOf src) os)
    (ha : assemble env (readTokens src).2 (linesOf src) os = some r) {k : Nat} {o : LineOut} (ho : os[k]? = some o) :
    (Overlong r k → ∃ op, o.ctx.ops = [op, .empty]) ∧ (¬ Overlong r k → ∃ op, o.ctx.ops = [op]) := by
  obtain ⟨lds, hl, -, hd, -⟩ := assemble_eq ha
  have hpos : ∀ (i : Nat) (o' : LineOut), os[i]? = some o' → ∀ d ∈ o'.ctx.diag, d.l = i := by
    intro i o' ho' d hd'
    have hi : i < lineCount (tokens src) := by
      have := (List.getElem?_eq_some_iff.1 ho').1
      rwa [hr.length, linesOf_length] at this
    obtain ⟨o2, h2, -, hf⟩ := hr.get i _ ((linesOf_get src i _).2 ⟨hi, rfl⟩)
    have : o2 = o' := Option.some.inj (h2.symm.trans ho')
    subst this
    obtain ⟨t, ht, h3, -⟩ := hf.diagPos d hd'
    rw [h3, (mem_lineTokens ht).2]
  have hk : k < lineCount (tokens src) := by
    have := (List.getElem?_eq_some_iff.1 ho).1
    rwa [hr.length, linesOf_length] at this
  obtain ⟨o2, h2, -, hf⟩ := hr.get k _ ((linesOf_get src k _).2 ⟨hk, rfl⟩)
  have : o2 = o := Option.some.inj (h2.symm.trans ho)
  subst this
  constructor
  · rintro ⟨d, hdm, hdk, hdl⟩
    rw [hd, List.mem_append, List.mem_append] at hdm
    have hin : d ∈ o2.ctx.diag := by
      rcases hdm with (h1 | h1) | h1
      · obtain ⟨e, -, rfl⟩ := List.mem_map.1 h1
        cases hdk
      · obtain ⟨o', ho', hd'⟩ := List.mem_flatMap.1 h1
        obtain ⟨i, hi⟩ := List.mem_iff_getElem?.1 ho'
        have := hpos i o' hi d hd'
        rw [hdl] at this
        subst this
        rw [ho] at hi
        injection hi with hi
        rw [hi]; exact hd'
      · have hlds := lintDiags_eq _ _ _ hl
        rw [hlds] at h1
        obtain ⟨e, -, rfl⟩ := List.mem_map.1 h1
        cases hdk
    rcases hf.ops with ⟨op, -, h3⟩ | ⟨op, t, h3, -⟩
    · exact absurd hdk (h3 d hin)
    · exact ⟨op, h3⟩
  · intro hn
    rcases hf.ops with ⟨op, h3, -⟩ | ⟨op, t, h3, ht, h4⟩
    · exact ⟨op, h3⟩
    · refine absurd ⟨_, ?_, rfl, (hpos k o2 ho _ h4)⟩ hn
      rw [hd]
      exact List.mem_append_left _ (List.mem_append_right _ (List.mem_flatMap.2 ⟨o2, List.mem_of_getElem? ho, h4⟩))

/-- Where the entries of the lines are. -/
theorem entries_of {env : Env} {src : Bytes} {r : ProcessResult} {os : List LineOut} (hr : Run env.addrOk {} (linesOf src) os)
    (ha : assemble env (readTokens src).2 (linesOf src) os = some r) (k : Nat) (hk : k ≤ os.length) :
    r.listing = (os.take k).flatMap (·.ctx.ops) ++ (os.drop k).flatMap (·.ctx.ops) ∧
    ((os.take k).flatMap (·.ctx.ops)).length = entryOf r k := by
  obtain ⟨lds, hl, hlist, hd, -⟩ := assemble_eq ha
  refine ⟨by rw [hlist, ← List.flatMap_append, List.take_append_drop], ?_⟩
  induction k with
  | zero => rfl
  | succ k ih =>
    have ih := ih (by omega)
    have ho : os[k]? = some os[k] := List.getElem?_eq_getElem (by omega)
    have h1 := overlong_iff hr ha ho
    rw [List.take_add_one, ho, Option.toList_some, List.flatMap_append, List.length_append, ih]
    simp only [List.flatMap_cons, List.flatMap_nil, List.append_nil]
    unfold entryOf
    rw [overlongBefore]
    by_cases hs : Overlong r k
    · obtain ⟨op, h2⟩ := h1.1 hs
      rw [if_pos hs, h2]
      simp only [List.length_cons, List.length_nil]
      omega
    · obtain ⟨op, h2⟩ := h1.2 hs
      rw [if_neg hs, h2]
      simp only [List.length_cons, List.length_nil]
      omega

/-- **C123** For every text that has a result: the listing has one entry for each line and an empty one more
behind that of each line that is said to have too many values, and nothing else. -/
theorem C123_listing (env : Env) (src : Bytes) (r : ProcessResult) (h : process env src = some r) :
    r.listing.length = entryOf r (lineCount (tokens src)) ∧
    ∀ k, k < lineCount (tokens src) →
      (words (tokens src) k = [] → r.listing[entryOf r k]? = some .empty) ∧
      (∀ n, r.listing[entryOf r k]? = some (.label n) ↔
        n ≠ [] ∧ ∃ t, (words (tokens src) k).head? = some t ∧ t.v = n ++ [chColon]) ∧
      (∃ op, r.listing[entryOf r k]? = some op ∧ op.labels = (labelOperands (words (tokens src) k)).map Token.v) ∧
      (Overlong r k → r.listing[entryOf r k + 1]? = some .empty) := by
  obtain ⟨os, hr, ha⟩ := process_run h
  have hlen : os.length = lineCount (tokens src) := by rw [hr.length, linesOf_length]
  refine ⟨?_, ?_⟩
  · have h1 := entries_of hr ha os.length (Nat.le_refl _)
    rw [h1.1, List.drop_length, List.flatMap_nil, List.append_nil, h1.2, hlen]
  intro k hk
  obtain ⟨o, ho, hp, hf⟩ := hr.get k _ ((linesOf_get src k _).2 ⟨hk, rfl⟩)
  have hent := entries_of hr ha k (by omega)
  have hdrop : os.drop k = o :: os.drop (k + 1) := by
    have hlt : k < os.length := by omega
    rw [List.drop_eq_getElem_cons hlt]
    congr 1
    rw [List.getElem?_eq_getElem hlt] at ho
    exact Option.some.inj ho
  have hover := overlong_iff hr ha ho
  -- the entries of the line
  have hops : ∃ op tl, o.ctx.ops = op :: tl ∧ (tl = [] ∨ tl = [.empty]) ∧ (Overlong r k → tl = [.empty]) := by
    by_cases hs : Overlong r k
    · obtain ⟨op, h2⟩ := hover.1 hs
      exact ⟨op, _, h2, .inr rfl, fun _ => rfl⟩
    · obtain ⟨op, h2⟩ := hover.2 hs
      exact ⟨op, _, h2, .inl rfl, fun h => absurd h hs⟩
  obtain ⟨op, tl, hop, htl, hover'⟩ := hops
  have hget : r.listing[entryOf r k]? = some op := by
    rw [hent.1, List.getElem?_append_right (by rw [hent.2]; exact Nat.le_refl _), hent.2, Nat.sub_self, hdrop, List.flatMap_cons, hop]
    rfl
  refine ⟨?_, ?_, ⟨op, hget, ?_⟩, ?_⟩
  · intro hw
    have hline : lineTokens (tokens src) k = comments (tokens src) k := by
      unfold lineTokens; rw [if_pos hw]
    rw [hline] at hp
    cases hc : comments (tokens src) k with
    | nil =>
      rw [hc, processLine] at hp
      injection hp with hp
      rw [hget]
      rw [← hp] at hop
      injection hop with hop
      rw [hop]
    | cons c cs =>
      have hcc := (mem_comments.1 (hc ▸ List.mem_cons_self : c ∈ comments (tokens src) k)).2.2
      rw [hc, processLine] at hp
      simp only [hcc, if_true] at hp
      rw [hget]
      split at hp <;>
      · injection hp with hp
        rw [← hp] at hop
        injection hop with hop
        rw [hop]
  · intro n
    have hdefs := hf.defs
    rw [hop, labelHead_eq] at hdefs
    have hname : ∀ op' : Op, op' = .label n ↔ op'.labelName? = some n := by
      intro op'; cases op' <;> simp [Op.labelName?]
    rw [hget, Option.some.injEq, hname]
    have htl' : tl.filterMap Op.labelName? = [] := by
      rcases htl with rfl | rfl <;> rfl
    have : op.labelName? = (labelWord (tokens src) k).map (·.v.dropLast) := by
      revert hdefs
      simp only [List.filterMap_cons, htl']
      cases op.labelName? <;> cases labelWord (tokens src) k <;> simp
    rw [this]
    constructor
    · intro h
      rw [Option.map_eq_some_iff] at h
      obtain ⟨t, ht, rfl⟩ := h
      have h1 := labelWord_some ht
      unfold labelWord at ht
      rw [Option.filter_eq_some_iff] at ht
      exact ⟨h1.2.2, t, ht.1, h1.2.1⟩
    · rintro ⟨hn, t, ht, hv⟩
      have : labelWord (tokens src) k = some t := by
        unfold labelWord
        rw [Option.filter_eq_some_iff]
        refine ⟨ht, ?_⟩
        rw [(labelName_eq).2 ⟨hv, hn⟩]; rfl
      rw [this, Option.map_some, hv, List.dropLast_concat]
  · have := hf.labels
    rw [hop, hf.refs, labelOperands_eq] at this
    have htl' : tl.flatMap Op.labels = [] := by rcases htl with rfl | rfl <;> rfl
    rw [List.flatMap_cons, htl', List.append_nil] at this
    exact this
  · intro hs
    rw [hent.1, List.getElem?_append_right (by rw [hent.2]; omega), hent.2, Nat.add_sub_cancel_left, hdrop, List.flatMap_cons, hop, hover' hs]
    rfl

/-- The entries of the listing are those of the lines and the empty ones behind them. -/
theorem entry_cases {env : Env} {src : Bytes} {r : ProcessResult} (h : process env src = some r) (j : Nat) (hj : j < r.listing.length) :
    ∃ k, k < lineCount (tokens src) ∧ (j = entryOf r k ∨ Overlong r k ∧ j = entryOf r k + 1) := by
  rw [(C123_listing env src r h).1] at hj
  generalize lineCount (tokens src) = n at hj
  induction n with
  | zero => exact absurd hj (by simp [entryOf, overlongBefore])
  | succ n ih =>
    by_cases hlt : j < entryOf r n
    · obtain ⟨k, h1, h2⟩ := ih hlt
      exact ⟨k, by omega, h2⟩
    · refine ⟨n, by omega, ?_⟩
      unfold entryOf at hj hlt ⊢
      rw [overlongBefore] at hj
      by_cases hs : Overlong r n
      · rw [if_pos hs] at hj
        by_cases he : j = n + overlongBefore r n
        · exact .inl he
        · exact .inr ⟨hs, by omega⟩
      · rw [if_neg hs] at hj
        exact .inl (by omega)

theorem entryOf_lt {r : ProcessResult} {j k : Nat} (h : j < k) : entryOf r j < entryOf r k := by
  induction k with
  | zero => omega
  | succ k ih =>
    have : entryOf r k < entryOf r (k + 1) := by
      unfold entryOf
      rw [overlongBefore]
      split <;> omega
    by_cases hj : j = k
    · subst hj; exact this
    · exact Nat.lt_trans (ih (by omega)) this

/-- A text defines a label exactly if an entry of its listing does. -/
theorem defined_exact {env : Env} {src : Bytes} {r : ProcessResult} (h : process env src = some r) (n : Bytes) :
    (∃ j, DefinedAt r.listing n j) ↔ DefinesLabel src n := by
  have h18 := C123_listing env src r h
  constructor
  · rintro ⟨j, hj⟩
    obtain ⟨k, hk, rfl | ⟨hs, rfl⟩⟩ := entry_cases h j (List.getElem?_eq_some_iff.1 hj).1
    · obtain ⟨hn, t, ht⟩ := ((h18.2 k hk).2.1 n).1 hj
      exact ⟨hn, k, t, ht⟩
    · have := (h18.2 k hk).2.2.2 hs
      replace hj : r.listing[entryOf r k + 1]? = some (.label n) := hj
      rw [this] at hj
      cases hj
  · rintro ⟨hn, j, t, ht, hv⟩
    have hj' : j < lineCount (tokens src) := words_lt (fun h => by rw [h] at ht; cases ht)
    exact ⟨_, ((h18.2 j hj').2.1 n).2 ⟨hn, t, ht, hv⟩⟩

/-- **C123** For every text that has a result: a label that is an operand of line `k` and is defined nowhere is reported
as missing, and nothing else is.  The report is as many lines below line `k` as there are lines above that have
too many values. -/
theorem C123_missing (env : Env) (src : Bytes) (r : ProcessResult) (h : process env src = some r) (i : Nat) (n : Bytes) :
    (∃ d ∈ r.diagnostics, d.kind = .lint (.missingLabel n) ∧ d.l = i) ↔
      ∃ k, i = entryOf r k ∧ (∃ t ∈ labelOperands (words (tokens src) k), t.v = n) ∧ ¬ DefinesLabel src n := by
  have h18 := C123_listing env src r h
  have hdef := defined_exact h
  have hrefers : ∀ (p : Op) (n : Bytes), Refers p n ↔ n ∈ p.labels := fun p n => (mem_labels_iff p n).symm
  constructor
  · rintro ⟨d, hd, hk, rfl⟩
    obtain ⟨j, he, hdj⟩ := (lint_diag h (.missingLabel n) d).1 ⟨hd, hk⟩
    rw [hdj]
    obtain ⟨p, h1, h2, h3⟩ := (C21_missing_rule _ _ _ _).1 he
    obtain ⟨k, hk, rfl | ⟨hs, rfl⟩⟩ := entry_cases h j (List.getElem?_eq_some_iff.1 h1).1
    · obtain ⟨op, hop, hlab⟩ := (h18.2 k hk).2.2.1
      have : op = p := Option.some.inj (hop.symm.trans h1)
      subst this
      rw [hrefers, hlab] at h2
      obtain ⟨t, ht, rfl⟩ := List.mem_map.1 h2
      exact ⟨k, rfl, ⟨t, ht, rfl⟩, fun hd => h3 ((hdef _).2 hd)⟩
    · have := (h18.2 k hk).2.2.2 hs
      replace h1 : r.listing[entryOf r k + 1]? = some p := h1
      rw [this] at h1
      injection h1 with h1
      subst h1
      rw [hrefers] at h2
      cases h2
  · rintro ⟨k, rfl, ⟨t, ht, rfl⟩, hnd⟩
    have hj' : k < lineCount (tokens src) := words_lt (fun h => by rw [h] at ht; simp [labelOperands] at ht)
    obtain ⟨op, hop, hlab⟩ := (h18.2 k hj').2.2.1
    have he : ⟨entryOf r k, .missingLabel t.v⟩ ∈ lintErrs env.maps r.listing :=
      (C21_missing_rule _ _ _ _).2 ⟨op, hop, (hrefers _ _).2 (hlab ▸ List.mem_map.2 ⟨t, ht, rfl⟩),
        fun hd => hnd ((hdef _).1 hd)⟩
    have := (lint_diag h (.missingLabel t.v) _).2 ⟨_, he, rfl⟩
    exact ⟨_, this.1, rfl, rfl⟩

/-- An entry that is not empty is that of a line with words. -/
theorem entry_line {env : Env} {src : Bytes} {r : ProcessResult} (h : process env src = some r) {j : Nat} {o : Op} (hj : r.listing[j]? = some o)
    (hn : o ≠ .empty) : ∃ k, k < lineCount (tokens src) ∧ j = entryOf r k ∧ words (tokens src) k ≠ [] := by
  have h123 := C123_listing env src r h
  obtain ⟨k, hk, rfl | ⟨hs, rfl⟩⟩ := entry_cases h j (List.getElem?_eq_some_iff.1 hj).1
  · refine ⟨k, hk, rfl, fun hw => ?_⟩
    rw [(h123.2 k hk).1 hw] at hj
    exact hn (Option.some.inj hj).symm
  · rw [(h123.2 k hk).2.2.2 hs] at hj
    exact absurd (Option.some.inj hj).symm hn

/-- **C123** Every report of the linter is about a line with words, and is as many lines below it as there are lines above
that have too many values. -/
theorem C123_about (env : Env) (src : Bytes) (r : ProcessResult) (h : process env src = some r) (d : Diag) (hd : d ∈ r.diagnostics)
    (rule : LintRule) (hk : d.kind = .lint rule) :
    ∃ k, d.l = entryOf r k ∧ words (tokens src) k ≠ [] ∧ d.l < lineCount (tokens src) := by
  obtain ⟨j, he, hdj⟩ := (lint_diag h rule d).1 ⟨hd, hk⟩
  have hj : j < lineCount (tokens src) := by
    obtain ⟨os, hr, ha⟩ := process_run h
    obtain ⟨lds, hl, -⟩ := assemble_eq ha
    have := (lintDiags_some _ _).1 ⟨lds, hl⟩ _ he
    rwa [linesOf_length] at this
  have hne : ∃ o, r.listing[j]? = some o ∧ o ≠ .empty := by
    rcases (mem_lintErrs _ _ _).1 he with h1 | h1 | h1 | h1 | h1 | h1 | h1
    · obtain ⟨n, -, -, h2, -⟩ := (mem_lintDuplicate _ _ _).1 h1
      exact ⟨_, h2, by simp⟩
    · obtain ⟨n, -, h2, -⟩ := (mem_lintUnused _ _ _).1 h1
      exact ⟨_, h2, by simp⟩
    · obtain ⟨-, o, h2, h3, -⟩ := (mem_lintUnreachable _ _).1 h1
      exact ⟨o, h2, by rintro rfl; cases h3⟩
    · obtain ⟨-, n, -, h2, -⟩ := (mem_lintBJustBefore _ _).1 h1
      exact ⟨_, h2, by simp⟩
    · obtain ⟨p, n, -, h2, h3, -⟩ := (mem_lintMissing _ _ _).1 h1
      exact ⟨p, h2, by rintro rfl; cases h3⟩
    · obtain ⟨-, n, -, h2, -⟩ := (mem_lintLoops _ _).1 h1
      exact ⟨_, h2, by simp⟩
    · obtain ⟨-, v, h2, -⟩ := (mem_lintPragma _ _).1 h1
      exact ⟨_, h2, by simp⟩
  obtain ⟨o, h1, h2⟩ := hne
  obtain ⟨k, -, hk, hw⟩ := entry_line h h1 h2
  rw [hdj]
  exact ⟨k, hk, hw, hj⟩

/-- The entries that are labels are those of the lines that define them. -/
theorem label_entry {env : Env} {src : Bytes} {r : ProcessResult} (h : process env src = some r) (j : Nat) (n : Bytes) :
    r.listing[j]? = some (.label n) ↔ ∃ k, j = entryOf r k ∧ DefinesOn src k n := by
  have h123 := C123_listing env src r h
  constructor
  · intro hj
    obtain ⟨k, hk, rfl, -⟩ := entry_line h hj (by simp)
    exact ⟨k, rfl, ((h123.2 k hk).2.1 n).1 hj⟩
  · rintro ⟨k, rfl, hn, t, ht, hv⟩
    have hk : k < lineCount (tokens src) := words_lt (fun h => by rw [h] at ht; cases ht)
    exact ((h123.2 k hk).2.1 n).2 ⟨hn, t, ht, hv⟩

/-- **C123** A label is reported as duplicated for each of the lines that define it if there are several, and as many
lines below as there are lines above that have too many values. -/
theorem C123_duplicate (env : Env) (src : Bytes) (r : ProcessResult) (h : process env src = some r) (i : Nat) (n : Bytes) :
    (∃ d ∈ r.diagnostics, d.kind = .lint (.duplicateLabel n) ∧ d.l = i) ↔
      ∃ k k', i = entryOf r k ∧ k ≠ k' ∧ DefinesOn src k n ∧ DefinesOn src k' n := by
  constructor
  · rintro ⟨d, hd, hk, rfl⟩
    obtain ⟨j, he, hdj⟩ := (lint_diag h (.duplicateLabel n) d).1 ⟨hd, hk⟩
    rw [hdj]
    obtain ⟨j', h1, hne, h2⟩ := (C27_duplicate_labels _ _ _ _).1.1 he
    obtain ⟨k, rfl, h3⟩ := (label_entry h _ _).1 h1
    obtain ⟨k', rfl, h4⟩ := (label_entry h _ _).1 h2
    exact ⟨k, k', rfl, fun hk => hne (by rw [hk]), h3, h4⟩
  · rintro ⟨k, k', rfl, hne, h3, h4⟩
    have he : ⟨entryOf r k, .duplicateLabel n⟩ ∈ lintErrs env.maps r.listing := by
      refine (C27_duplicate_labels _ _ _ _).1.2 ⟨entryOf r k', (label_entry h _ _).2 ⟨k, rfl, h3⟩, ?_, (label_entry h _ _).2 ⟨k', rfl, h4⟩⟩
      rcases Nat.lt_or_gt_of_ne hne with hlt | hlt
      · exact Nat.ne_of_gt (entryOf_lt hlt)
      · exact Nat.ne_of_lt (entryOf_lt hlt)
    have := (lint_diag h (.duplicateLabel n) _).2 ⟨_, he, rfl⟩
    exact ⟨_, this.1, rfl, rfl⟩

/-- **C123** A label is reported as unused for each of the lines that define it if it is no operand of a line, and as many
lines below as there are lines above that have too many values. -/
theorem C123_unused (env : Env) (src : Bytes) (r : ProcessResult) (h : process env src = some r) (i : Nat) (n : Bytes) :
    (∃ d ∈ r.diagnostics, d.kind = .lint (.unusedLabel n) ∧ d.l = i) ↔
      ∃ k, i = entryOf r k ∧ DefinesOn src k n ∧ ∀ k' t, t ∈ labelOperands (words (tokens src) k') → t.v ≠ n := by
  have h123 := C123_listing env src r h
  have hrefers : ∀ (p : Op) (n : Bytes), Refers p n ↔ n ∈ p.labels := fun p n => (mem_labels_iff p n).symm
  have huse : (¬ ∃ k p, At r.listing k p ∧ Refers p n) ↔ ∀ k' t, t ∈ labelOperands (words (tokens src) k') → t.v ≠ n := by
    constructor
    · intro hno k' t ht hv
      have hk : k' < lineCount (tokens src) := words_lt (fun h => by rw [h] at ht; simp [labelOperands] at ht)
      obtain ⟨op, hop, hlab⟩ := (h123.2 k' hk).2.2.1
      exact hno ⟨_, op, hop, (hrefers _ _).2 (hlab ▸ List.mem_map.2 ⟨t, ht, hv⟩)⟩
    · rintro hno ⟨j, p, hp, href⟩
      obtain ⟨k, hk, rfl, -⟩ := entry_line h hp (by rintro rfl; cases href)
      obtain ⟨op, hop, hlab⟩ := (h123.2 k hk).2.2.1
      have : op = p := Option.some.inj (hop.symm.trans hp)
      subst this
      rw [hrefers, hlab] at href
      obtain ⟨t, ht, hv⟩ := List.mem_map.1 href
      exact hno k t ht hv
  constructor
  · rintro ⟨d, hd, hk, rfl⟩
    obtain ⟨j, he, hdj⟩ := (lint_diag h (.unusedLabel n) d).1 ⟨hd, hk⟩
    rw [hdj]
    obtain ⟨h1, h2⟩ := (C28_unused_labels _ _ _ _).1.1 he
    obtain ⟨k, rfl, h3⟩ := (label_entry h _ _).1 h1
    exact ⟨k, rfl, h3, huse.1 h2⟩
  · rintro ⟨k, rfl, h3, h2⟩
    have he : ⟨entryOf r k, .unusedLabel n⟩ ∈ lintErrs env.maps r.listing :=
      (C28_unused_labels _ _ _ _).1.2 ⟨(label_entry h _ _).2 ⟨k, rfl, h3⟩, huse.2 h2⟩
    have := (lint_diag h (.unusedLabel n) _).2 ⟨_, he, rfl⟩
    exact ⟨_, this.1, rfl, rfl⟩

/-- Two of the lines have too many values; the label missing on line 3 is reported on line 5. -/
example : ∃ r, process sampleEnv b!"pop 1\nx:\npop 2 3\nbnz y\nint 1\n\n" = some r ∧ Overlong r 0 ∧ ¬ Overlong r 1 ∧ Overlong r 2 ∧
    entryOf r 3 = 5 ∧ r.listing.length = 8 ∧ ∃ d ∈ r.diagnostics, d.kind = .lint (.missingLabel b!"y") ∧ d.l = 5 :=
  ⟨(process sampleEnv b!"pop 1\nx:\npop 2 3\nbnz y\nint 1\n\n").get (by decide +kernel), by decide +kernel, by decide +kernel,
    by decide +kernel, by decide +kernel, by decide +kernel, by decide +kernel, by decide +kernel⟩

/-- A label that is defined twice and not used, below a line with too many values. -/
example : ∃ r, process sampleEnv b!"pop 1\nx:\nx:\nint 1\n" = some r ∧ entryOf r 2 = 3 ∧
    (∃ d ∈ r.diagnostics, d.kind = .lint (.duplicateLabel b!"x") ∧ d.l = 3) ∧ ∃ d ∈ r.diagnostics, d.kind = .lint (.unusedLabel b!"x") ∧ d.l = 2 :=
  ⟨(process sampleEnv b!"pop 1\nx:\nx:\nint 1\n").get (by decide +kernel), by decide +kernel, by decide +kernel, by decide +kernel,
    by decide +kernel⟩

end Teal.Props
