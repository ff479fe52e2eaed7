import Verif.Lemmas.Process
import Verif.Spec.Opcodes
import Verif.Props.Linter

/-!
# Properties C17–C25: `Process`

`process env src` is the result of processing the text `src` (`none`: the call panics); `env` is
the address checker of the SDK and the order in which Go visits maps, both arbitrary.  `tokens src`
are the tokens of the text, and the words, comments and labels of its lines are those of
`Verif.Spec.Source`.
-/

namespace Teal.Props
open Spec

/-- The tokens of a text. -/
abbrev tokens (src : Bytes) : List Token := (readTokens src).1

/-- The environment used in examples. -/
def sampleEnv : Env := ⟨fun _ => true, sampleOrder⟩

/-! ## Bridges from the loop over the lines to the words of the text -/

theorem labelHead_eq (ts : List Token) (k : Nat) : labelHead (lineTokens ts k) = labelWord ts k := by
  unfold labelWord lineTokens
  by_cases hw : words ts k = []
  · rw [if_pos hw, hw]
    cases hc : comments ts k with
    | nil => rfl
    | cons c cs =>
      have := (mem_comments.1 (hc ▸ List.mem_cons_self : c ∈ comments ts k)).2.2
      simp [labelHead, this]
  · rw [if_neg hw]
    cases hc : words ts k with
    | nil => exact absurd hc hw
    | cons c cs =>
      have := (mem_words.1 (hc ▸ List.mem_cons_self : c ∈ words ts k)).2.2
      simp only [labelHead, this, true_and, List.head?_cons, Option.filter]

theorem labelOperands_eq (src : Bytes) (k : Nat) :
    labelOperands (lineTokens (tokens src) k) = labelOperands (words (tokens src) k) := by
  have h2 := (onLine_split (readTokens_seq src) k).2
  unfold lineTokens
  by_cases hw : words (tokens src) k = []
  · rw [if_pos hw, hw]
    cases hc : comments (tokens src) k with
    | nil => rfl
    | cons c cs =>
      have : cs = [] := by
        rw [hc] at h2
        cases cs with | nil => rfl | cons => simp at h2
      subst this
      simp [labelOperands]
  · rw [if_neg hw]

theorem labelName_eq {w n : Bytes} : labelName w = some n ↔ w = n ++ [chColon] ∧ n ≠ [] := by
  unfold labelName
  constructor
  · intro h
    split at h
    · rename_i hc
      injection h with h
      obtain ⟨ys, hys⟩ := List.getLast?_eq_some_iff.1 hc.1
      subst hys
      rw [List.dropLast_concat] at h
      subst h
      exact ⟨rfl, fun h => hc.2 (by rw [h]; rfl)⟩
    · cases h
  · rintro ⟨rfl, hn⟩
    rw [if_pos, List.dropLast_concat]
    refine ⟨by simp, fun h => hn ?_⟩
    simpa using h

theorem labelWord_some {ts : List Token} {k : Nat} {t : Token} (h : labelWord ts k = some t) :
    t ∈ words ts k ∧ t.v = t.v.dropLast ++ [chColon] ∧ t.v.dropLast ≠ [] := by
  unfold labelWord at h
  rw [Option.filter_eq_some_iff] at h
  obtain ⟨n, hn⟩ := Option.isSome_iff_exists.1 h.2
  rw [labelName_eq] at hn
  refine ⟨List.mem_of_mem_head? h.1, ?_⟩
  rw [hn.1, List.dropLast_concat]
  exact ⟨rfl, hn.2⟩

theorem labelWord_lt {src : Bytes} {k : Nat} {t : Token} (h : labelWord (tokens src) k = some t) :
    k < lineCount (tokens src) := by
  rcases Nat.lt_or_ge k (lineCount (tokens src)) with hk | hk
  · exact hk
  · have := labelHead_eq (tokens src) k
    rw [(lineTokens_nil (readTokens_seq src) k hk).1, h] at this
    cases this

theorem words_lt {src : Bytes} {k : Nat} (h : words (tokens src) k ≠ []) :
    k < lineCount (tokens src) := by
  rcases Nat.lt_or_ge k (lineCount (tokens src)) with hk | hk
  · exact hk
  · exact absurd (lineTokens_nil (readTokens_seq src) k hk).2 h

theorem noSurplus_lines {env : Env} {errs : List LexError} {lts : List (List Token)} {os : List LineOut}
    {r : ProcessResult} (ha : assemble env errs lts os = some r) (hs : NoSurplus r) :
    ∀ d ∈ os.flatMap (·.ctx.diag), d.kind ≠ .parse .tooManyValues := by
  obtain ⟨lds, -, -, hd, -⟩ := assemble_eq ha
  intro d hmem
  apply hs
  rw [hd]
  simp only [List.mem_append]
  exact Or.inl (Or.inr hmem)

/-- A linter diagnostic of the result is an error of the linter on the listing, and the other way
round; it covers the line with the same number. -/
theorem lint_diag {env : Env} {src : Bytes} {r : ProcessResult} (h : process env src = some r)
    (rule : LintRule) (d : Diag) :
    d ∈ r.diagnostics ∧ d.kind = .lint rule ↔
      ∃ k, ⟨k, rule⟩ ∈ lintErrs env.maps r.listing ∧
        d = ⟨.lint rule, k, lineBegin (lineTokens (tokens src) k), lineEnd (lineTokens (tokens src) k)⟩ := by
  obtain ⟨os, hr, ha⟩ := process_run h
  obtain ⟨lds, hl, -, hd, -⟩ := assemble_eq ha
  have hlt := (lintDiags_some _ _).1 ⟨lds, hl⟩
  have hlds := lintDiags_eq _ _ _ hl
  have key : ∀ k, k < (linesOf src).length → ((linesOf src)[k]?).getD [] = lineTokens (tokens src) k := by
    intro k hk
    rw [linesOf_length] at hk
    rw [(linesOf_get src k _).2 ⟨hk, rfl⟩]; rfl
  rw [hd]
  constructor
  · rintro ⟨hmem, hk⟩
    simp only [List.mem_append] at hmem
    rcases hmem with (hmem | hmem) | hmem
    · obtain ⟨e, -, rfl⟩ := List.mem_map.1 hmem; cases hk
    · obtain ⟨o, ho, hmem⟩ := List.mem_flatMap.1 hmem
      obtain ⟨s', line, -, hf⟩ := hr.mem o ho
      rcases hf.diagKind d hmem with h | ⟨w, h⟩
      · rw [hk] at h; cases h
      · rw [hk] at h; cases h
    · rw [hlds] at hmem
      obtain ⟨e, he, rfl⟩ := List.mem_map.1 hmem
      simp only [DiagKind.lint.injEq] at hk
      subst hk
      refine ⟨e.l, he, ?_⟩
      rw [key e.l (hlt e he)]
  · rintro ⟨k, he, rfl⟩
    refine ⟨?_, rfl⟩
    simp only [List.mem_append]
    refine Or.inr ?_
    rw [hlds]
    exact List.mem_map.2 ⟨_, he, by rw [key k (hlt _ he)]⟩

/-! ## C17 -/

/-- **C17 is false of the code**: `pop 1` followed by a line with an unused label makes `Process`
panic (the surplus word yields a second entry of the listing, so the linter reports a line that
does not exist). -/
theorem C17_false : process sampleEnv b!"pop 1\na:" = none := by decide +kernel

/-! ## C18 -/

/-- **C18** (partial: for texts no line of which has more words than its instruction takes, see
`C18_false`.)  The listing has exactly one entry per source line: lines without words are empty
entries, lines defining a label are that label, and the labels entry `k` branches to are the label
operands of line `k`. -/
theorem C18_one_per_line_partial (env : Env) (src : Bytes) (r : ProcessResult)
    (h : process env src = some r) (hs : NoSurplus r) :
    r.listing.length = lineCount (tokens src) ∧
    ∀ k, k < lineCount (tokens src) →
      (words (tokens src) k = [] → r.listing[k]? = some .empty) ∧
      (∀ n, r.listing[k]? = some (.label n) ↔
        n ≠ [] ∧ ∃ t, (words (tokens src) k).head? = some t ∧ t.v = n ++ [chColon]) ∧
      (∃ op, r.listing[k]? = some op ∧ op.labels = (labelOperands (words (tokens src) k)).map Token.v) := by
  obtain ⟨os, hr, ha⟩ := process_run h
  obtain ⟨lds, hl, hlist, hd, -⟩ := assemble_eq ha
  have hone := noSurplus_ops hr (noSurplus_lines ha hs)
  refine ⟨by rw [hlist, one_op_length hone, hr.length, linesOf_length], ?_⟩
  intro k hk
  obtain ⟨o, ho, hp, hf⟩ := hr.get k _ ((linesOf_get src k _).2 ⟨hk, rfl⟩)
  obtain ⟨op, hop⟩ := hone o (List.mem_of_getElem? ho)
  have hget : r.listing[k]? = some op := by rw [hlist, one_op hone k o ho, hop]; rfl
  refine ⟨?_, ?_, op, hget, ?_⟩
  · intro hw
    have hline : lineTokens (tokens src) k = comments (tokens src) k := by
      unfold lineTokens; rw [if_pos hw]
    rw [hline] at hp
    cases hc : comments (tokens src) k with
    | nil =>
      rw [hc, processLine] at hp
      injection hp with hp
      rw [hget]
      rw [← hp] at hop
      injection hop with hop
      rw [hop]
    | cons c cs =>
      have hcc := (mem_comments.1 (hc ▸ List.mem_cons_self : c ∈ comments (tokens src) k)).2.2
      rw [hc, processLine] at hp
      simp only [hcc, if_true] at hp
      rw [hget]
      split at hp <;>
      · injection hp with hp
        rw [← hp] at hop
        injection hop with hop
        rw [hop]
  · intro n
    have hdefs := hf.defs
    rw [hop, labelHead_eq] at hdefs
    have hname : ∀ op' : Op, op' = .label n ↔ op'.labelName? = some n := by
      intro op'; cases op' <;> simp [Op.labelName?]
    rw [hget, Option.some.injEq, hname]
    have : op.labelName? = (labelWord (tokens src) k).map (·.v.dropLast) := by
      revert hdefs
      simp only [List.filterMap_cons, List.filterMap_nil]
      cases op.labelName? <;> cases labelWord (tokens src) k <;> simp
    rw [this]
    constructor
    · intro h
      rw [Option.map_eq_some_iff] at h
      obtain ⟨t, ht, rfl⟩ := h
      have h1 := labelWord_some ht
      unfold labelWord at ht
      rw [Option.filter_eq_some_iff] at ht
      exact ⟨h1.2.2, t, ht.1, h1.2.1⟩
    · rintro ⟨hn, t, ht, hv⟩
      have : labelWord (tokens src) k = some t := by
        unfold labelWord
        rw [Option.filter_eq_some_iff]
        refine ⟨ht, ?_⟩
        rw [(labelName_eq).2 ⟨hv, hn⟩]; rfl
      rw [this, Option.map_some, hv, List.dropLast_concat]
  · have := hf.labels
    rw [hop, hf.refs, labelOperands_eq] at this
    simpa using this

/-- The hypotheses are met, also by a text with errors. -/
example : ∃ r, process sampleEnv b!"#pragma version 8\n\nint 1 // one\nbz x\nint\nx:" = some r ∧
    (∀ d ∈ r.diagnostics, d.kind ≠ .parse .tooManyValues) ∧ r.listing.length = 6 ∧
    r.diagnostics ≠ [] := by
  refine ⟨(process sampleEnv b!"#pragma version 8\n\nint 1 // one\nbz x\nint\nx:").get
    (by decide +kernel), by decide +kernel, by decide +kernel, by decide +kernel, by decide +kernel⟩

/-- **C18 is false of the code**: a line with surplus words has two entries. -/
theorem C18_false : ∃ r, process sampleEnv b!"pop 1" = some r ∧ lineCount (tokens b!"pop 1") = 1 ∧
    r.listing = [.plain .pop, .empty] :=
  ⟨(process sampleEnv b!"pop 1").get (by decide +kernel), by decide +kernel, by decide +kernel,
    by decide +kernel⟩

/-! ## C20 -/

/-- **C20** The reported symbols are, in order, exactly the lines whose first word ends with a
colon (and is not only a colon), with the name before the colon and the position of the word. -/
theorem C20_symbols (env : Env) (src : Bytes) (r : ProcessResult) (h : process env src = some r) :
    r.symbols.map (fun s => (s.name, s.l, s.b, s.e)) =
      ((List.range (lineCount (tokens src))).filterMap (labelWord (tokens src))).map
        (fun t => (t.v.dropLast, t.l, t.b, t.e)) := by
  obtain ⟨os, hr, ha⟩ := process_run h
  obtain ⟨lds, -, -, -, -, hsym, -⟩ := assemble_eq ha
  rw [hsym]
  have h1 : (os.filterMap (·.sym)).map (fun s => (s.name, s.l, s.b, s.e)) =
      os.filterMap (fun o => o.sym.map (fun s => (s.name, s.l, s.b, s.e))) := by
    rw [List.map_filterMap]
  rw [h1, hr.filterMap _ (fun line => (labelHead line).map (fun t => (t.v.dropLast, t.l, t.b, t.e)))
    (fun s line o hf => by rw [hf.sym]; cases labelHead line <;> rfl), linesOf_eq, List.filterMap_map,
    List.map_filterMap]
  apply List.filterMap_congr
  intro k _
  show Option.map _ (labelHead (lineTokens _ k)) = _
  rw [labelHead_eq]

/-- **C20** Every line defining a label is among the lines of the text, and its symbol carries its
line number. -/
theorem C20_position (src : Bytes) (k : Nat) (t : Token) (h : labelWord (tokens src) k = some t) :
    k < lineCount (tokens src) ∧ t.l = k ∧ t.v = t.v.dropLast ++ [chColon] :=
  ⟨labelWord_lt h, (mem_words.1 (labelWord_some h).1).2.1, (labelWord_some h).2.1⟩

example : ∃ r, process sampleEnv b!"a:\nint 1\n b: // x" = some r ∧
    r.symbols.map (fun s => (s.name, s.l, s.b, s.e)) = [(b!"a", 0, 0, 2), (b!"b", 2, 1, 3)] :=
  ⟨(process sampleEnv b!"a:\nint 1\n b: // x").get (by decide +kernel), by decide +kernel,
    by decide +kernel⟩

/-! ## C21 -/

/-- Some line of the text defines the label `n`. -/
def DefinesLabel (src n : Bytes) : Prop :=
  n ≠ [] ∧ ∃ k t, (words (tokens src) k).head? = some t ∧ t.v = n ++ [chColon]

theorem defines_iff (src n : Bytes) :
    DefinesLabel src n ↔ ∃ k t, labelWord (tokens src) k = some t ∧ t.v.dropLast = n := by
  constructor
  · rintro ⟨hn, k, t, ht, hv⟩
    refine ⟨k, t, ?_, by rw [hv, List.dropLast_concat]⟩
    unfold labelWord
    rw [Option.filter_eq_some_iff]
    refine ⟨ht, ?_⟩
    rw [(labelName_eq).2 ⟨hv, hn⟩]; rfl
  · rintro ⟨k, t, h, rfl⟩
    have h1 := labelWord_some h
    unfold labelWord at h
    rw [Option.filter_eq_some_iff] at h
    exact ⟨h1.2.2, k, t, h.1, h1.2.1⟩

/-- **C21** The reported references are, in order, exactly the label operands of the lines. -/
theorem C21_references (env : Env) (src : Bytes) (r : ProcessResult) (h : process env src = some r) :
    r.symbolRefs = (List.range (lineCount (tokens src))).flatMap
      (fun k => labelOperands (words (tokens src) k)) := by
  obtain ⟨os, hr, ha⟩ := process_run h
  obtain ⟨lds, -, -, -, href, -⟩ := assemble_eq ha
  rw [href, hr.flatMap _ labelOperands (fun s line o hf => hf.refs), linesOf_eq]
  rw [List.flatMap_map]
  congr 1
  funext k
  exact labelOperands_eq src k

/-- **C21** The references reported as missing are exactly those whose label no line defines. -/
theorem C21_missing_refs (env : Env) (src : Bytes) (r : ProcessResult) (h : process env src = some r)
    (t : Token) : t ∈ r.missRefs ↔ t ∈ r.symbolRefs ∧ ¬ DefinesLabel src t.v := by
  obtain ⟨os, hr, ha⟩ := process_run h
  obtain ⟨lds, -, -, -, -, -, hmiss, -⟩ := assemble_eq ha
  rw [hmiss, List.mem_filter]
  have key : (r.symbols.any fun s => s.name == t.v) = true ↔ DefinesLabel src t.v := by
    rw [defines_iff, List.any_eq_true]
    have hsym := C20_symbols env src r h
    constructor
    · rintro ⟨s, hs, hn⟩
      have : (s.name, s.l, s.b, s.e) ∈ r.symbols.map (fun s => (s.name, s.l, s.b, s.e)) :=
        List.mem_map.2 ⟨s, hs, rfl⟩
      rw [hsym] at this
      obtain ⟨w, hw, he⟩ := List.mem_map.1 this
      obtain ⟨k, -, hk⟩ := List.mem_filterMap.1 hw
      refine ⟨k, w, hk, ?_⟩
      have : w.v.dropLast = s.name := by injection he
      rw [this]; simpa using hn
    · rintro ⟨k, w, hk, hn⟩
      have : (w.v.dropLast, w.l, w.b, w.e) ∈ r.symbols.map (fun s => (s.name, s.l, s.b, s.e)) := by
        rw [hsym]
        exact List.mem_map.2 ⟨w, List.mem_filterMap.2
          ⟨k, List.mem_range.2 (labelWord_lt hk), hk⟩, rfl⟩
      obtain ⟨s, hs, he⟩ := List.mem_map.1 this
      refine ⟨s, hs, ?_⟩
      have : s.name = w.v.dropLast := by injection he
      rw [this, hn]; simp
  simp only [Bool.not_eq_true', ← key, Bool.not_eq_true]

/-- **C21** (partial: without surplus words, see `C21_false`.)  A missing-label diagnostic is
names a label on line `k` exactly when the label is an operand of the line and defined nowhere. -/
theorem C21_missing_diag_partial (env : Env) (src : Bytes) (r : ProcessResult)
    (h : process env src = some r) (hs : NoSurplus r) (k : Nat) (n : Bytes) :
    (∃ d ∈ r.diagnostics, d.kind = .lint (.missingLabel n) ∧ d.l = k) ↔
      (∃ t ∈ labelOperands (words (tokens src) k), t.v = n) ∧ ¬ DefinesLabel src n := by
  have h18 := C18_one_per_line_partial env src r h hs
  have hdef : ∀ n, (∃ j, DefinedAt r.listing n j) ↔ DefinesLabel src n := by
    intro n
    constructor
    · rintro ⟨j, hj⟩
      have hj' : j < lineCount (tokens src) := by
        rw [← h18.1]; exact (List.getElem?_eq_some_iff.1 hj).1
      obtain ⟨hn, t, ht⟩ := ((h18.2 j hj').2.1 n).1 hj
      exact ⟨hn, j, t, ht⟩
    · rintro ⟨hn, j, t, ht, hv⟩
      have hj' : j < lineCount (tokens src) := words_lt (fun h => by rw [h] at ht; cases ht)
      exact ⟨j, ((h18.2 j hj').2.1 n).2 ⟨hn, t, ht, hv⟩⟩
  have hrefers : ∀ (p : Op) (n : Bytes), Refers p n ↔ n ∈ p.labels := fun p n => (mem_labels_iff p n).symm
  constructor
  · rintro ⟨d, hd, hk, rfl⟩
    obtain ⟨j, he, hdj⟩ := (lint_diag h (.missingLabel n) d).1 ⟨hd, hk⟩
    rw [hdj]
    obtain ⟨p, h1, h2, h3⟩ := (C21_missing_rule _ _ _ _).1 he
    have hj' : j < lineCount (tokens src) := by
      rw [← h18.1]; exact (List.getElem?_eq_some_iff.1 h1).1
    obtain ⟨op, hop, hlab⟩ := (h18.2 j hj').2.2
    have : op = p := Option.some.inj (hop.symm.trans h1)
    subst this
    rw [hrefers, hlab] at h2
    obtain ⟨t, ht, rfl⟩ := List.mem_map.1 h2
    exact ⟨⟨t, ht, rfl⟩, fun hd => h3 ((hdef _).2 hd)⟩
  · rintro ⟨⟨t, ht, rfl⟩, hnd⟩
    have hj' : k < lineCount (tokens src) := words_lt (fun h => by rw [h] at ht; simp [labelOperands] at ht)
    obtain ⟨op, hop, hlab⟩ := (h18.2 k hj').2.2
    have he : ⟨k, .missingLabel t.v⟩ ∈ lintErrs env.maps r.listing :=
      (C21_missing_rule _ _ _ _).2 ⟨op, hop, (hrefers _ _).2 (hlab ▸ List.mem_map.2 ⟨t, ht, rfl⟩),
        fun hd => hnd ((hdef _).1 hd)⟩
    have := (lint_diag h (.missingLabel t.v) _).2 ⟨k, he, rfl⟩
    exact ⟨_, this.1, rfl, rfl⟩

example : ∃ r, process sampleEnv b!"bz x\nb y\nx:" = some r ∧
    (∀ d ∈ r.diagnostics, d.kind ≠ .parse .tooManyValues) ∧
    ∃ d ∈ r.diagnostics, d.kind = .lint (.missingLabel b!"y") ∧ d.l = 1 :=
  ⟨(process sampleEnv b!"bz x\nb y\nx:").get (by decide +kernel), by decide +kernel, by decide +kernel,
    by decide +kernel⟩

/-- **C21 is false of the code** when a line has surplus words: the missing label of line 1 is
reported on line 2. -/
theorem C21_false : ∃ r, process sampleEnv b!"pop 1\nb x\n\n" = some r ∧
    (r.diagnostics.filter fun d => decide (d.kind = .lint (.missingLabel b!"x"))).map (·.l) = [2] :=
  ⟨(process sampleEnv b!"pop 1\nb x\n\n").get (by decide +kernel), by decide +kernel, by decide +kernel⟩

end Teal.Props
