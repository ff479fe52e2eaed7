import Verif.Props.Rename

/-!
# Properties of the language server: finding labels
-/

namespace Teal.Lsp

open Teal Teal.Spec Teal.Lsp.Spec Teal.Props

theorem mem_defines {env : Env} {src : Bytes} {r : ProcessResult} (h : process env src = some r) (n : Bytes) (rg : Rg) :
    rg ∈ (r.symByName n).map (fun s => onLine s.l s.b (s.b + s.name.length)) ↔
      ∃ l b e : Nat, rg = onLine l b e ∧ Defines (tokens src) n l b e := by
  simp only [List.mem_map, ProcessResult.symByName, List.mem_filter, beq_iff_eq]
  constructor
  · rintro ⟨s, ⟨hs, rfl⟩, rfl⟩
    obtain ⟨w, hw, hn, hb, he⟩ := (mem_symbols h s.name s.l s.b s.e).1 ⟨s, hs, rfl, rfl, rfl, rfl⟩
    exact ⟨s.l, s.b, s.b + s.name.length, by simp, w, hw, hn, hb.symm, by rw [hb]⟩
  · rintro ⟨l, b, e, rfl, t, ht, hn, rfl, rfl⟩
    obtain ⟨s, hs, h1, h2, h3, h4⟩ := (mem_symbols h n l t.b t.e).2 ⟨t, ht, hn, rfl, rfl⟩
    refine ⟨s, ⟨hs, h1⟩, ?_⟩
    rw [h1, h2, h3]
    simp

theorem refs_eq {env : Env} {src : Bytes} {r : ProcessResult} (h : process env src = some r) :
    r.listing.flatMap Op.labels = r.symbolRefs.map Token.v := by
  obtain ⟨os, hr, ha⟩ := process_run h
  obtain ⟨lds, hf⟩ := assemble_eq ha
  have hl := hf.2
  clear hl
  have h1 : r.listing = os.flatMap (·.ctx.ops) := by
    unfold assemble at ha
    simp only [Option.map_eq_some_iff] at ha
    obtain ⟨_, _, rfl⟩ := ha
    rfl
  have h2 : r.symbolRefs = os.flatMap (·.ctx.refs) := by
    unfold assemble at ha
    simp only [Option.map_eq_some_iff] at ha
    obtain ⟨_, _, rfl⟩ := ha
    rfl
  rw [h1, h2, List.flatMap_assoc, List.map_flatMap]
  have hall : ∀ o ∈ os, o.ctx.ops.flatMap Op.labels = o.ctx.refs.map Token.v := by
    intro o ho
    obtain ⟨s, line, hm, hf⟩ := hr.mem o ho
    exact hf.labels
  rw [List.flatMap_def, List.flatMap_def, List.map_congr_left hall]

theorem refCount_eq {env : Env} {src : Bytes} {r : ProcessResult} (h : process env src = some r) (n : Bytes) :
    refCount r.listing n = refsTo (tokens src) n := by
  unfold refCount refsTo refsUpTo
  rw [refs_eq h, ← C21_references env src r h, List.filter_map, List.length_map]
  congr 2
  funext t
  simp [Bool.beq_eq_decide_eq]

theorem lenses_eq (f : Bytes → Nat) (ss : List LabelSym) (ws : List Token)
    (h : ss.map (fun s => (s.name, s.l, s.b, s.e)) = ws.map fun t => (t.v.dropLast, t.l, t.b, t.e)) :
    (ss.filter fun s => f s.name > 0).map (fun s => ((s.l : Int), f s.name)) =
      (ws.filter fun t => decide (f t.v.dropLast > 0)).map fun t => ((t.l : Int), f t.v.dropLast) := by
  induction ss generalizing ws with
  | nil =>
    cases ws with
    | nil => rfl
    | cons w ws => cases h
  | cons s ss ih =>
    cases ws with
    | nil => cases h
    | cons w ws =>
      simp only [List.map_cons, List.cons.injEq, Prod.mk.injEq] at h
      obtain ⟨⟨h1, h2, _⟩, h3⟩ := h
      simp only [List.filter_cons, h1]
      split
      · rw [List.map_cons, List.map_cons, ih ws h3, h1, h2]
      · exact ih ws h3

theorem cfgStep_setting (c : Config) (m : Msg) (ms : List Msg) (g : Config → Bool) (f : Options → Option Bool)
    (hf : ∀ (o : Options) c, g (o.apply c) = (f o).getD (g c)) :
    ∀ c, g (ms.foldl cfgStep c) = ((ms.filterMap fun m =>
      if m.response then none
      else
        match m.call with
        | .initialize (.given (some o)) => f o
        | _ => none).getLast?).getD (g c) := by
  induction ms with
  | nil => intro c; rfl
  | cons m ms ih =>
    intro c
    rw [List.foldl_cons, ih, List.filterMap_cons]
    unfold cfgStep
    by_cases hm : m.response = true
    · simp [hm]
    · simp only [hm, Bool.false_eq_true, if_false]
      split
      · rename_i o heq
        simp only [heq]
        rw [hf]
        cases ho : f o with
        | none => rfl
        | some b =>
          simp only [Option.getD_some, List.getLast?_cons]
      · rename_i hne
        split
        · rfl
        · rename_i o heq
          split at heq
          · rename_i hc
            exact absurd hc (hne _)
          · cases heq

theorem config_of {h : Host} {ms : List (Choice × Msg)} (hr : Running h ms) (hup : ¬ ∃ y ∈ ms, IsShutdown y.2)
    (g : Config → Bool) (f : Options → Option Bool) (hg : g {} = true)
    (hf : ∀ (o : Options) c, g (o.apply c) = (f o).getD (g c)) :
    g (run h ms).st.config = setting f (ms.map (·.2)) := by
  have hsh : (run h ms).st.shutdown = false := by
    rw [← Bool.not_eq_true, shutdown_iff h ms hr]; exact hup
  rw [(session_inv h ms hr hsh).config, cfgStep_setting {} ⟨false, [], .exit⟩ _ g f hf, hg]
  rfl

end Teal.Lsp

namespace Teal.Props

open Teal Teal.Spec Teal.Lsp Teal.Lsp.Spec

/-- C67: with the cursor on a reference, going to the definition gives exactly the places that
define the label a reference under the cursor refers to, in the order of the text. -/
theorem C67 (h : Host) (ms : List (Choice × Msg)) (u src : Bytes) (p : Pos) (a : Result)
    (ha : Answered h ms u src (.definition p) a) (hu : ∃ t, RefUnder (tokens src) p t) :
    ∃ (t : Token) (rgs : List Rg), RefUnder (tokens src) p t ∧ a = .locations (rgs.map fun rg => (u, rg)) ∧
      (∀ rg, rg ∈ rgs ↔ ∃ l b e : Nat, rg = Lsp.onLine l b e ∧ Defines (tokens src) t.v l b e) ∧
      rgs.Pairwise fun x y => x.start.line < y.start.line := by
  obtain ⟨ch, mp, r, hr, hans⟩ := answered ha
  simp only [answer, Option.some.injEq] at hans
  obtain ⟨t, ht, hp⟩ := hu
  have hm : t ∈ r.symbolRefsWithin p.range := by
    refine List.mem_filter.2 ⟨(mem_refs hr t).2 ht, ?_⟩
    rw [Token.range, overlaps_pos]; exact hp
  unfold ProcessResult.symbolsForRefWithin at hans
  cases hw : r.symbolRefsWithin p.range with
  | nil => rw [hw] at hm; cases hm
  | cons t' ts =>
    rw [hw] at hans
    have hm' : t' ∈ r.symbolRefsWithin p.range := by rw [hw]; simp
    obtain ⟨h1, h2⟩ := List.mem_filter.1 hm'
    rw [Token.range, overlaps_pos] at h2
    refine ⟨t', (r.symByName t'.v).map (fun s => Lsp.onLine s.l s.b (s.b + s.name.length)), ⟨(mem_refs hr t').1 h1, h2⟩, ?_, mem_defines hr _, ?_⟩
    · rw [← hans, List.map_map]
      rfl
    · rw [List.pairwise_map]
      refine ((symbols_ordered hr).sublist List.filter_sublist).imp ?_
      intro x y hxy
      simpa [Lsp.onLine] using hxy

/-- C67: with the cursor elsewhere there is nothing to go to. -/
theorem C67_nothing (h : Host) (ms : List (Choice × Msg)) (u src : Bytes) (p : Pos) (a : Result)
    (ha : Answered h ms u src (.definition p) a) (hu : ¬ ∃ t, RefUnder (tokens src) p t) : a = .locations [] := by
  obtain ⟨ch, mp, r, hr, hans⟩ := answered ha
  simp only [answer, Option.some.injEq] at hans
  have : r.symbolRefsWithin p.range = [] := by
    rw [List.eq_nil_iff_forall_not_mem]
    intro t ht
    obtain ⟨h1, h2⟩ := List.mem_filter.1 ht
    rw [Token.range, overlaps_pos] at h2
    exact hu ⟨t, (mem_refs hr t).1 h1, h2⟩
  rw [← hans, ProcessResult.symbolsForRefWithin, this]
  rfl

/-- The hypotheses of the C67 theorems are met. -/
example :
    Answered sampleHost sampleSession b!"u" b!"b x\nx:" (.definition ⟨0, 2⟩)
      (.locations [(b!"u", Lsp.onLine 1 0 1)]) ∧
    RefUnder (tokens b!"b x\nx:") ⟨0, 2⟩ { v := b!"x", l := 0, b := 2, e := 3, t := .value } ∧
    Answered sampleHost sampleSession b!"u" b!"b x\nx:" (.definition ⟨0, 1⟩) (.locations []) := by
  refine ⟨sample_answered _ _ (by decide +kernel), ⟨by decide +kernel, ?_⟩, sample_answered _ _ (by decide +kernel)⟩
  simp [On]

/-- C68: with the cursor on a label, exactly the places where it is defined or referred to are
highlighted, each once. -/
theorem C68 (h : Host) (ms : List (Choice × Msg)) (u src : Bytes) (p : Pos) (a : Result)
    (ha : Answered h ms u src (.documentHighlight p) a) (hu : ∃ t n, Under (tokens src) p t n) :
    ∃ t n rgs, Under (tokens src) p t n ∧ a = .highlights rgs ∧
      (∀ rg, rg ∈ rgs ↔ ∃ l b e : Nat, rg = Lsp.onLine l b e ∧ Occurs (tokens src) n l b e) ∧ rgs.Pairwise Apart := by
  obtain ⟨ch, mp, r, hr, hans⟩ := answered ha
  simp only [answer, Option.some.injEq] at hans
  have key : ∃ t, Under (tokens src) p t (r.symOrRefAt p.range) := by
    unfold ProcessResult.symOrRefAt
    cases hs : r.symbols.find? fun s => Overlaps p.range s.range with
    | some s =>
      have hs' : s ∈ r.symbolsWithin p.range := List.mem_filter.2 ⟨List.mem_of_find?_eq_some hs, by simpa using List.find?_some hs⟩
      obtain ⟨t, ht, _⟩ := under_symbol hr hs'
      exact ⟨t, ht⟩
    | none =>
      dsimp only
      cases ht : r.symbolRefs.find? fun t => Overlaps p.range t.range with
      | some t =>
        exact ⟨t, (under_iff hr p t t.v).2 (.inr ⟨List.mem_filter.2 ⟨List.mem_of_find?_eq_some ht, by simpa using List.find?_some ht⟩, rfl⟩)⟩
      | none =>
        exfalso
        obtain ⟨t, n, hu⟩ := hu
        rcases (under_iff hr p t n).1 hu with ⟨s, hm, _⟩ | ⟨hm, _⟩
        · exact absurd (List.mem_filter.1 hm).2 (by simpa using List.find?_eq_none.1 hs s (List.mem_filter.1 hm).1)
        · exact absurd (List.mem_filter.1 hm).2 (by simpa using List.find?_eq_none.1 ht t (List.mem_filter.1 hm).1)
  obtain ⟨t, ht⟩ := key
  refine ⟨t, _, _, ht, hans.symm, fun rg => ?_, ?_⟩
  · rw [← mem_renameEdits hr [] _ rg]
    unfold renameEdits
    rw [List.map_append, List.map_map, List.map_map]
    rfl
  · have hp := List.pairwise_map.2 (renameEdits_apart hr [] (r.symOrRefAt p.range))
    unfold renameEdits at hp
    rw [List.map_append, List.map_map, List.map_map] at hp
    exact hp

/-- C68: with the cursor elsewhere nothing is highlighted. -/
theorem C68_nothing (h : Host) (ms : List (Choice × Msg)) (u src : Bytes) (p : Pos) (a : Result)
    (ha : Answered h ms u src (.documentHighlight p) a) (hu : ¬ ∃ t n, Under (tokens src) p t n) :
    a = .highlights [] := by
  obtain ⟨ch, mp, r, hr, hans⟩ := answered ha
  simp only [answer, Option.some.injEq] at hans
  have h1 : r.symOrRefAt p.range = [] := by
    unfold ProcessResult.symOrRefAt
    cases hs : r.symbols.find? fun s => Overlaps p.range s.range with
    | some s =>
      exfalso
      have hs' : s ∈ r.symbolsWithin p.range := List.mem_filter.2 ⟨List.mem_of_find?_eq_some hs, by simpa using List.find?_some hs⟩
      obtain ⟨t, ht, _⟩ := under_symbol hr hs'
      exact hu ⟨t, _, ht⟩
    | none =>
      dsimp only
      cases ht : r.symbolRefs.find? fun t => Overlaps p.range t.range with
      | some t =>
        exfalso
        exact hu ⟨t, _, (under_iff hr p t t.v).2 (.inr ⟨List.mem_filter.2 ⟨List.mem_of_find?_eq_some ht, by simpa using List.find?_some ht⟩, rfl⟩)⟩
      | none => rfl
  rw [← hans, h1]
  have h2 : r.symByName [] = [] := by
    refine List.filter_eq_nil_iff.2 ?_
    intro s hs he
    obtain ⟨w, hw, hn, _⟩ := (mem_symbols hr s.name s.l s.b s.e).1 ⟨s, hs, rfl, rfl, rfl, rfl⟩
    rw [labelName_eq] at hn
    exact hn.2 (by simpa using he)
  have h3 : r.symRefByName [] = [] := by
    refine List.filter_eq_nil_iff.2 ?_
    intro t ht he
    have hw := mem_words.1 ((labelOperands_sublist _).subset ((mem_refs hr t).1 ht))
    have hne : t.v = [] := by simpa using he
    rcases (C03_shapes src t hw.1).1 hw.2.2 with h | ⟨body, h⟩
    · exact h.1 hne
    · rw [hne] at h; cases h
  rw [h2, h3]
  rfl

/-- The hypotheses of the C68 theorems are met. -/
example :
    Answered sampleHost sampleSession b!"u" b!"b x\nx:" (.documentHighlight ⟨1, 2⟩)
      (.highlights [Lsp.onLine 1 0 1, Lsp.onLine 0 2 3]) ∧
    Under (tokens b!"b x\nx:") ⟨1, 2⟩ { v := b!"x:", l := 1, b := 0, e := 2, t := .value } b!"x" ∧
    Answered sampleHost sampleSession b!"u" b!"b x\nx:" (.documentHighlight ⟨0, 0⟩) (.highlights []) := by
  refine ⟨sample_answered _ _ (by decide +kernel), .definition _ _ (by decide +kernel) (by decide +kernel) ?_,
    sample_answered _ _ (by decide +kernel)⟩
  simp [On]

/-- C69: the outline lists the labels of the text in order, each with its name and the place of
its definition. -/
theorem C69 (h : Host) (ms : List (Choice × Msg)) (u src : Bytes) (a : Result)
    (ha : Answered h ms u src .documentSymbol a) :
    a = .symbols (((List.range (lineCount (tokens src))).filterMap (labelWord (tokens src))).map
      fun t => (t.v.dropLast, Lsp.onLine t.l t.b t.e)) := by
  obtain ⟨ch, mp, r, hr, hans⟩ := answered ha
  simp only [answer, Option.some.injEq] at hans
  rw [← hans]
  have := congrArg (List.map fun x : Bytes × Nat × Nat × Nat => (x.1, Lsp.onLine x.2.1 x.2.2.1 x.2.2.2)) (C20_symbols _ src r hr)
  rw [List.map_map, List.map_map] at this
  congr 1

/-- The hypothesis of `C69` is met. -/
example : Answered sampleHost sampleSession b!"u" b!"b x\nx:" .documentSymbol (.symbols [(b!"x", Lsp.onLine 1 0 2)]) :=
  sample_answered _ _ (by decide +kernel)

/-- C70: unless they are switched off, there is a code lens for each label that is referred to,
in order, with the number of references. -/
theorem C70 (h : Host) (ms : List (Choice × Msg)) (u src : Bytes) (a : Result)
    (ha : Answered h ms u src .codeLens a) :
    a = .codeLenses (if setting (·.lensRefs) (ms.map (·.2)) then
      (((List.range (lineCount (tokens src))).filterMap (labelWord (tokens src))).filter
        fun t => decide (refsTo (tokens src) t.v.dropLast > 0)).map
          fun t => ((t.l : Int), refsTo (tokens src) t.v.dropLast)
      else []) := by
  obtain ⟨ch, mp, r, hr, hans⟩ := answered ha
  simp only [answer, Option.some.injEq] at hans
  rw [← hans]
  have hc := config_of ha.running ha.up (·.lensRefs) (·.lensRefs) rfl (fun o c => rfl)
  rw [hc]
  simp only [refCount_eq hr]
  have hsym := C20_symbols _ src r hr
  generalize (List.range (lineCount (tokens src))).filterMap (labelWord (tokens src)) = ws at hsym
  rw [lenses_eq _ _ _ hsym]

/-- The hypothesis of `C70` is met, with lenses and without. -/
example : Answered sampleHost sampleSession b!"u" b!"b x\nx:" .codeLens (.codeLenses []) ∧
    Answered sampleHost (openSession b!"b x\nx:\nbz x\ny:") b!"u" b!"b x\nx:\nbz x\ny:" .codeLens (.codeLenses [(1, 2)]) :=
  ⟨sample_answered _ _ (by decide +kernel), open_answered _ _ _ (by decide +kernel)⟩

end Teal.Props
