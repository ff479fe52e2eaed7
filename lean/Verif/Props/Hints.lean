import Verif.Lemmas.Hints
import Verif.Props.Labels

/-!
# Properties of the language server: hints and the quick fixes for values
-/

namespace Teal.Lsp

open Teal Teal.Spec Teal.Lsp.Spec Teal.Props

theorem overlaps_meets {rg : Rg} {t : Token} (h1 : rg.start.line ≤ t.l) (h2 : t.l ≤ rg.stop.line) (h : Overlaps t.range rg.range = true) :
    Meets rg t := by
  rw [Overlaps, Bool.and_eq_true, Bool.and_eq_true, Bool.and_eq_true] at h
  obtain ⟨⟨⟨h3, h4⟩, -⟩, -⟩ := h
  have h3 : (t.b : Int) ≤ rg.stop.character := of_decide_eq_true h3
  have h4 : rg.start.character ≤ t.e := of_decide_eq_true h4
  unfold Meets Pos.Le
  dsimp only
  constructor <;> omega

theorem overlaps_level {rg : Rg} {t : Token} (h : Overlaps t.range rg.range = true) : Level rg t.b t.e := by
  rw [Overlaps, Bool.and_eq_true, Bool.and_eq_true, Bool.and_eq_true] at h
  obtain ⟨⟨⟨h3, h4⟩, -⟩, -⟩ := h
  exact ⟨of_decide_eq_true h4, of_decide_eq_true h3⟩

theorem level_overlaps {rg : Rg} {t : Token} (hl : Level rg t.b t.e) (h : Meets rg t) :
    rg.start.line ≤ t.l ∧ t.l ≤ rg.stop.line ∧ Overlaps t.range rg.range = true := by
  unfold Meets Pos.Le at h
  unfold Level at hl
  dsimp only at h
  rw [Overlaps, Bool.and_eq_true, Bool.and_eq_true, Bool.and_eq_true]
  exact ⟨by omega, by omega, ⟨⟨decide_eq_true (show (t.b : Int) ≤ rg.stop.character by omega),
    decide_eq_true (show rg.start.character ≤ t.e by omega)⟩, decide_eq_true (show (t.l : Int) ≤ rg.stop.line by omega)⟩,
    decide_eq_true (show rg.start.line ≤ t.l by omega)⟩

theorem meets_overlaps {rg : Rg} {t : Token} (hl : rg.start.line = rg.stop.line) (h : Meets rg t) :
    rg.start.line ≤ t.l ∧ t.l ≤ rg.stop.line ∧ Overlaps t.range rg.range = true := by
  unfold Meets Pos.Le at h
  dsimp only at h
  rw [Overlaps, Bool.and_eq_true, Bool.and_eq_true, Bool.and_eq_true]
  exact ⟨by omega, by omega, ⟨⟨decide_eq_true (show (t.b : Int) ≤ rg.stop.character by omega),
    decide_eq_true (show rg.start.character ≤ t.e by omega)⟩, decide_eq_true (show (t.l : Int) ≤ rg.stop.line by omega)⟩,
    decide_eq_true (show rg.start.line ≤ t.l by omega)⟩

end Teal.Lsp

namespace Teal.Props

open Teal Teal.Spec Teal.Lsp Teal.Lsp.Spec

/-- **C75** (partial: that no hint is missing is shown for ranges on one line; `C75_false` shows
that hints can be missing for others.)  Each inlay hint stands behind a word that meets the range:
a field written as a number, and then the hint is its name, or bytes written in hex, all of them
printable, and then the hint is their text.  Each kind is given only if it is switched on. -/
theorem C75_partial (h : Host) (ms : List (Choice × Msg)) (u src : Bytes) (rg : Rg) (a : Result)
    (ha : Answered h ms u src (.inlayHint rg) a) : ∃ hs, a = .inlayHints hs ∧
    (∀ p s, (p, s) ∈ hs → ∃ t, p = behind t ∧ Meets rg t ∧
      ((setting (·.inlayNamed) (ms.map (·.2)) = true ∧ IsFieldNumber (tokens src) t s) ∨
       (setting (·.inlayDecoded) (ms.map (·.2)) = true ∧ IsHexText (tokens src) t s))) ∧
    (rg.start.line = rg.stop.line → ∀ t s, Meets rg t →
      (setting (·.inlayNamed) (ms.map (·.2)) = true ∧ IsFieldNumber (tokens src) t s) ∨
      (setting (·.inlayDecoded) (ms.map (·.2)) = true ∧ IsHexText (tokens src) t s) → (behind t, s) ∈ hs) := by
  obtain ⟨ch, mp, r, hr, hans⟩ := answered ha
  simp only [answer] at hans
  obtain ⟨ps, hps, rfl⟩ := Option.map_eq_some_iff.1 hans
  have hn := config_of ha.running ha.up (·.inlayNamed) (·.inlayNamed) rfl (fun o c => rfl)
  have hd := config_of ha.running ha.up (·.inlayDecoded) (·.inlayDecoded) rfl (fun o c => rfl)
  rw [hn, hd]
  obtain ⟨m1, m2⟩ := inlayHints_mem hr hps
  refine ⟨_, rfl, ?_, ?_⟩
  · intro p s hm
    rcases List.mem_append.1 hm with hm | hm
    · split at hm
      · rename_i hs
        obtain ⟨⟨t, name⟩, hx, he⟩ := List.mem_map.1 hm
        simp only [Prod.mk.injEq] at he
        obtain ⟨rfl, rfl⟩ := he
        obtain ⟨h1, h2, h3, h4⟩ := (m1 t name).1 hx
        exact ⟨t, rfl, overlaps_meets h2 h3 h4, .inl ⟨hs, h1⟩⟩
      · cases hm
    · split at hm
      · rename_i hs
        obtain ⟨⟨t, bs⟩, hx, he⟩ := List.mem_map.1 hm
        simp only [Prod.mk.injEq] at he
        obtain ⟨rfl, rfl⟩ := he
        obtain ⟨h1, h2, h3, h4⟩ := (m2 t bs).1 hx
        exact ⟨t, rfl, overlaps_meets h2 h3 h4, .inr ⟨hs, h1⟩⟩
      · cases hm
  · intro hl t s hm hs
    have hov := meets_overlaps hl hm
    rw [List.mem_append]
    rcases hs with ⟨hs, h1⟩ | ⟨hs, h1⟩
    · left
      rw [if_pos hs]
      exact List.mem_map.2 ⟨⟨t, s⟩, (m1 t s).2 ⟨h1, hov⟩, rfl⟩
    · right
      rw [if_pos hs]
      exact List.mem_map.2 ⟨⟨t, s⟩, (m2 t s).2 ⟨h1, hov⟩, rfl⟩

/-- **C75** (partial: exactly which hints there are for any range, also over several lines: those behind
words whose columns cross the columns of the ends of the range.) -/
theorem C75_columns_partial (h : Host) (ms : List (Choice × Msg)) (u src : Bytes) (rg : Rg) (a : Result)
    (ha : Answered h ms u src (.inlayHint rg) a) : ∃ hs, a = .inlayHints hs ∧
    ∀ p s, (p, s) ∈ hs ↔ ∃ t, p = behind t ∧ Meets rg t ∧ Level rg t.b t.e ∧
      ((setting (·.inlayNamed) (ms.map (·.2)) = true ∧ IsFieldNumber (tokens src) t s) ∨
       (setting (·.inlayDecoded) (ms.map (·.2)) = true ∧ IsHexText (tokens src) t s)) := by
  obtain ⟨ch, mp, r, hr, hans⟩ := answered ha
  simp only [answer] at hans
  obtain ⟨ps, hps, rfl⟩ := Option.map_eq_some_iff.1 hans
  have hn := config_of ha.running ha.up (·.inlayNamed) (·.inlayNamed) rfl (fun o c => rfl)
  have hd := config_of ha.running ha.up (·.inlayDecoded) (·.inlayDecoded) rfl (fun o c => rfl)
  rw [hn, hd]
  obtain ⟨m1, m2⟩ := inlayHints_mem hr hps
  refine ⟨_, rfl, fun p s => ⟨?_, ?_⟩⟩
  · intro hm
    rcases List.mem_append.1 hm with hm | hm
    · split at hm
      · rename_i hs
        obtain ⟨⟨t, name⟩, hx, he⟩ := List.mem_map.1 hm
        simp only [Prod.mk.injEq] at he
        obtain ⟨rfl, rfl⟩ := he
        obtain ⟨h1, h2, h3, h4⟩ := (m1 t name).1 hx
        exact ⟨t, rfl, overlaps_meets h2 h3 h4, overlaps_level h4, .inl ⟨hs, h1⟩⟩
      · cases hm
    · split at hm
      · rename_i hs
        obtain ⟨⟨t, bs⟩, hx, he⟩ := List.mem_map.1 hm
        simp only [Prod.mk.injEq] at he
        obtain ⟨rfl, rfl⟩ := he
        obtain ⟨h1, h2, h3, h4⟩ := (m2 t bs).1 hx
        exact ⟨t, rfl, overlaps_meets h2 h3 h4, overlaps_level h4, .inr ⟨hs, h1⟩⟩
      · cases hm
  · rintro ⟨t, rfl, hm, hl, hs⟩
    have hov := level_overlaps hl hm
    rw [List.mem_append]
    rcases hs with ⟨hs, h1⟩ | ⟨hs, h1⟩
    · left
      rw [if_pos hs]
      exact List.mem_map.2 ⟨⟨t, s⟩, (m1 t s).2 ⟨h1, hov⟩, rfl⟩
    · right
      rw [if_pos hs]
      exact List.mem_map.2 ⟨⟨t, s⟩, (m2 t s).2 ⟨h1, hov⟩, rfl⟩

/-- The hypothesis of `C75_partial` is met, and there are hints of both kinds. -/
example : Answered sampleHost (openSession b!"txn 1\nbyte 0x4142") b!"u" b!"txn 1\nbyte 0x4142" (.inlayHint ⟨⟨0, 0⟩, ⟨1, 11⟩⟩)
      (.inlayHints [(⟨0, 5⟩, b!"Fee"), (⟨1, 11⟩, b!"AB")]) ∧
    IsFieldNumber (tokens b!"txn 1\nbyte 0x4142") { v := b!"1", l := 0, b := 4, e := 5, t := .value } b!"Fee" ∧
    IsHexText (tokens b!"txn 1\nbyte 0x4142") { v := b!"0x4142", l := 1, b := 5, e := 11, t := .value } b!"AB" := by
  refine ⟨open_answered _ _ _ (by decide +kernel), ?_, ?_⟩
  · refine ⟨{ v := b!"txn", l := 0, b := 0, e := 3, t := .value }, [{ v := b!"1", l := 0, b := 4, e := 5, t := .value }], 0, 1,
      by decide +kernel, rfl, ⟨b!"1", [1], by decide, ⟨by decide, by decide⟩, .inl ⟨rfl, by decide⟩⟩, ?_⟩
    exact .txn b!"txn" 1 ⟨b!"Fee", 0, false, some 5⟩ (by decide) (by decide)
  · exact ⟨by decide +kernel, ⟨b!"4142", rfl, (hexDecode_iff _ _).1 (by decide +kernel)⟩, by decide⟩

/-- C75 is false for ranges over several lines: the columns of the range are compared with those of
every word in between, so a hint is missing for the first line of the two. -/
theorem C75_false : Answered sampleHost (openSession b!"txn   1\nerr") b!"u" b!"txn   1\nerr" (.inlayHint ⟨⟨0, 0⟩, ⟨1, 3⟩⟩)
      (.inlayHints []) ∧
    IsFieldNumber (tokens b!"txn   1\nerr") { v := b!"1", l := 0, b := 6, e := 7, t := .value } b!"Fee" ∧
    Meets ⟨⟨0, 0⟩, ⟨1, 3⟩⟩ { v := b!"1", l := 0, b := 6, e := 7, t := .value } := by
  refine ⟨open_answered _ _ _ (by decide +kernel), ?_, ?_⟩
  · refine ⟨{ v := b!"txn", l := 0, b := 0, e := 3, t := .value }, [{ v := b!"1", l := 0, b := 6, e := 7, t := .value }], 0, 1,
      by decide +kernel, rfl, ⟨b!"1", [1], by decide, ⟨by decide, by decide⟩, .inl ⟨rfl, by decide⟩⟩, ?_⟩
    exact .txn b!"txn" 1 ⟨b!"Fee", 0, false, some 5⟩ (by decide) (by decide)
  · simp [Meets, Pos.Le]

/-- **C76** (partial: that no fix is missing is shown for ranges on one line; see `C76_false`.)  The
fixes offered to replace a value are, for words that meet the range, to write the name of a field
for its number, and to write bytes given in hex as a string. -/
theorem C76_partial (h : Host) (ms : List (Choice × Msg)) (u src : Bytes) (rg : Rg) (a : Result)
    (ha : Answered h ms u src (.codeAction rg) a) : ∃ cs, a = .codeActions cs ∧
    (∀ u' rg' v, .valueReplace u' rg' v ∈ cs.map (·.command) → u' = u ∧ ∃ t, rg' = Lsp.onLine t.l t.b t.e ∧ Meets rg t ∧
      (IsFieldNumber (tokens src) t v ∨ ∃ bs, IsHexText (tokens src) t bs ∧ v = quoted bs)) ∧
    (rg.start.line = rg.stop.line → ∀ t, Meets rg t →
      (∀ v, IsFieldNumber (tokens src) t v → .valueReplace u (Lsp.onLine t.l t.b t.e) v ∈ cs.map (·.command)) ∧
      ∀ bs, IsHexText (tokens src) t bs → .valueReplace u (Lsp.onLine t.l t.b t.e) (quoted bs) ∈ cs.map (·.command)) := by
  obtain ⟨ch, mp, r, hr, hans⟩ := answered ha
  simp only [answer] at hans
  obtain ⟨cs, hcs, rfl⟩ := Option.map_eq_some_iff.1 hans
  unfold codeActions at hcs
  obtain ⟨ps, hps, rfl⟩ := Option.map_eq_some_iff.1 hcs
  obtain ⟨m1, m2⟩ := inlayHints_mem hr hps
  have hq : ∀ bs, chQuote :: (escapeQuotes bs ++ [chQuote]) = quoted bs := fun bs => rfl
  refine ⟨_, rfl, ?_, ?_⟩
  · intro u' rg' v hm
    simp only [List.map_append, List.map_map, Function.comp_def, List.mem_append, List.mem_map, reduceCtorEq, and_false, exists_false, false_or, or_false,
      Command.valueReplace.injEq] at hm
    rcases hm with ⟨⟨t, name⟩, hx, rfl, rfl, rfl⟩ | ⟨⟨t, bs⟩, hx, rfl, rfl, rfl⟩
    · obtain ⟨h1, h2, h3, h4⟩ := (m1 t name).1 hx
      exact ⟨rfl, t, rfl, overlaps_meets h2 h3 h4, .inl h1⟩
    · obtain ⟨h1, h2, h3, h4⟩ := (m2 t bs).1 hx
      exact ⟨rfl, t, rfl, overlaps_meets h2 h3 h4, .inr ⟨bs, h1, hq bs⟩⟩
  · intro hl t hm
    have hov := meets_overlaps hl hm
    simp only [List.map_append, List.map_map, Function.comp_def, List.mem_append, List.mem_map, reduceCtorEq, and_false, exists_false, false_or, or_false,
      Command.valueReplace.injEq]
    exact ⟨fun v hv => .inl ⟨⟨t, v⟩, (m1 t v).2 ⟨hv, hov⟩, trivial, rfl, rfl⟩,
      fun bs hb => .inr ⟨⟨t, bs⟩, (m2 t bs).2 ⟨hb, hov⟩, trivial, rfl, hq bs⟩⟩

/-- **C76** (partial: exactly which fixes are offered for any range, also over several lines.) -/
theorem C76_columns_partial (h : Host) (ms : List (Choice × Msg)) (u src : Bytes) (rg : Rg) (a : Result)
    (ha : Answered h ms u src (.codeAction rg) a) : ∃ cs, a = .codeActions cs ∧
    ∀ u' rg' v, .valueReplace u' rg' v ∈ cs.map (·.command) ↔ u' = u ∧ ∃ t, rg' = Lsp.onLine t.l t.b t.e ∧ Meets rg t ∧
      Level rg t.b t.e ∧ (IsFieldNumber (tokens src) t v ∨ ∃ bs, IsHexText (tokens src) t bs ∧ v = quoted bs) := by
  obtain ⟨ch, mp, r, hr, hans⟩ := answered ha
  simp only [answer] at hans
  obtain ⟨cs, hcs, rfl⟩ := Option.map_eq_some_iff.1 hans
  unfold codeActions at hcs
  obtain ⟨ps, hps, rfl⟩ := Option.map_eq_some_iff.1 hcs
  obtain ⟨m1, m2⟩ := inlayHints_mem hr hps
  have hq : ∀ bs, chQuote :: (escapeQuotes bs ++ [chQuote]) = quoted bs := fun bs => rfl
  refine ⟨_, rfl, fun u' rg' v => ⟨?_, ?_⟩⟩
  · intro hm
    simp only [List.map_append, List.map_map, Function.comp_def, List.mem_append, List.mem_map, reduceCtorEq, and_false, exists_false, false_or, or_false,
      Command.valueReplace.injEq] at hm
    rcases hm with ⟨⟨t, name⟩, hx, rfl, rfl, rfl⟩ | ⟨⟨t, bs⟩, hx, rfl, rfl, rfl⟩
    · obtain ⟨h1, h2, h3, h4⟩ := (m1 t name).1 hx
      exact ⟨rfl, t, rfl, overlaps_meets h2 h3 h4, overlaps_level h4, .inl h1⟩
    · obtain ⟨h1, h2, h3, h4⟩ := (m2 t bs).1 hx
      exact ⟨rfl, t, rfl, overlaps_meets h2 h3 h4, overlaps_level h4, .inr ⟨bs, h1, hq bs⟩⟩
  · rintro ⟨rfl, t, rfl, hm, hl, hv⟩
    have hov := level_overlaps hl hm
    simp only [List.map_append, List.map_map, Function.comp_def, List.mem_append, List.mem_map, reduceCtorEq, and_false, exists_false, false_or, or_false,
      Command.valueReplace.injEq]
    rcases hv with hv | ⟨bs, hb, rfl⟩
    · exact .inl ⟨⟨t, v⟩, (m1 t v).2 ⟨hv, hov⟩, trivial, rfl, rfl⟩
    · exact .inr ⟨⟨t, bs⟩, (m2 t bs).2 ⟨hb, hov⟩, trivial, rfl, hq bs⟩

/-- The hypothesis of `C76_partial` is met, and both kinds of fixes are offered. -/
example : Answered sampleHost (openSession b!"txn 1\nbyte 0x4122") b!"u" b!"txn 1\nbyte 0x4122" (.codeAction ⟨⟨0, 0⟩, ⟨1, 11⟩⟩)
    (.codeActions [⟨b!"Replace with 'Fee'", b!"Replace with named const", .valueReplace b!"u" (Lsp.onLine 0 4 5) b!"Fee"⟩,
      ⟨b!"Replace with literal 'A\"'", b!"Replace with literal", .valueReplace b!"u" (Lsp.onLine 1 5 11) (quoted b!"A\"")⟩]) :=
  open_answered _ _ _ (by decide +kernel)

/-- C76 is false for ranges over several lines, like C75. -/
theorem C76_false : Answered sampleHost (openSession b!"txn   1\nerr") b!"u" b!"txn   1\nerr" (.codeAction ⟨⟨0, 0⟩, ⟨1, 3⟩⟩)
      (.codeActions []) ∧
    IsFieldNumber (tokens b!"txn   1\nerr") { v := b!"1", l := 0, b := 6, e := 7, t := .value } b!"Fee" ∧
    Meets ⟨⟨0, 0⟩, ⟨1, 3⟩⟩ { v := b!"1", l := 0, b := 6, e := 7, t := .value } :=
  ⟨open_answered _ _ _ (by decide +kernel), C75_false.2⟩

/-- **C77** (partial: for lines that were read as an instruction, versions that have the field, and
texts whose strings do not contain line breaks; see `C77_false`.)  The text after the fix that writes
the name of a field for its number is read to the same program. -/
theorem C77_partial (h : Host) (ms : List (Choice × Msg)) (u src : Bytes) (t : Token) (name : Bytes) (es : List TextEdit)
    (ha : Executed h ms u src (.valueReplace u (Lsp.onLine t.l t.b t.e) name) es) (ht : IsFieldNumber (tokens src) t name)
    (hone : ∀ t ∈ tokens src, t.t = .value → ∀ x ∈ t.v, ¬ Break x)
    (env : Env) (r : ProcessResult) (hr : process env src = some r) (hs : NoSurplus r) (hread : r.listing[t.l]? ≠ some .empty)
    (hknown : ∀ ver w, VersionAt (tokens src) t.l ver → (words (tokens src) t.l).head? = some w → KnownAt ver w.v name) :
    ∃ src', Edited src es src' ∧ ∃ r', process env src' = some r' ∧ r'.listing = r.listing ∧ r'.version = r.version := by
  obtain ⟨-, rfl⟩ := executed_replace ha
  obtain ⟨w, rest, i, n, hw, hi, hn, hf⟩ := ht
  have htw : t ∈ words (tokens src) t.l := by rw [hw]; exact List.mem_cons_of_mem _ (List.mem_of_getElem? hi)
  have hm := mem_words.1 htw
  have hq : t.v.head? ≠ some chQuote := by
    obtain ⟨c, s, h1, h2⟩ := signed_head hn
    obtain ⟨digits, ds, h3, h4, h5⟩ := hn
    have hb : ∀ x : UInt8, digitValue x ≠ none → x ≠ chQuote := by apply forall_byte; decide +kernel
    rcases h5 with ⟨h5, -⟩ | ⟨h5, -⟩ | ⟨h5, -⟩
    · rw [h1, List.head?_cons]
      have : digitValue c ≠ none := by
        have h6 := congrArg List.head? h4.1
        rw [← h5, h1] at h6
        simp only [List.map_cons, List.head?_cons, List.head?_map] at h6
        intro h7
        rw [h7] at h6
        cases hds : ds.head? with
        | none => rw [hds] at h6; cases h6
        | some d => rw [hds] at h6; simp at h6
      intro he
      exact hb c this (Option.some.inj he)
    · rw [h5]; simp [chQuote]
    · rw [h5]; simp [chQuote]
  obtain ⟨src', h1, h2, h3⟩ := replace_word hm.1 hm.2.2 hq (Bare.writes (fieldName_plain hf)) hone
  refine ⟨src', h1, ?_⟩
  have hother : ∀ k, k ≠ t.l → (words (tokens src') k).map Token.v = (words (tokens src) k).map Token.v := by
    intro k hk
    rw [h3 k]
    refine List.map_congr_left fun s hs => if_neg ?_
    rintro rfl
    exact hk (mem_words.1 hs).2.1.symm
  have hline : (words (tokens src') t.l).map Token.v = w.v :: (rest.map Token.v).set i name := by
    rw [h3 t.l, map_replace hw hi]
  have hold : (words (tokens src) t.l).map Token.v = w.v :: rest.map Token.v := by rw [hw]; rfl
  have hpr : w.v ≠ b!"#pragma" := by
    obtain ⟨e, a, he, -⟩ := fieldName_iff.1 hf
    obtain ⟨hm, hname⟩ := opsGet_mem he
    rw [← hname]
    exact (opcode_plain e hm).2
  refine program_replaced hr hs h2 ?_ ?_
  · intro k v
    by_cases hk : k = t.l
    · subst hk
      rw [hline, hold]
      exact sets_head hpr _ _ _
    · rw [hother k hk]
  · intro k ver o ho hver hops
    by_cases hk : k = t.l
    · subst hk
      rw [hold] at hops
      rw [hline]
      have hne : o ≠ .empty := by rintro rfl; exact hread ho
      exact ops_named hops hne hf (by rw [List.getElem?_map, hi]; rfl) hn (hknown ver w hver (by rw [hw]; rfl))
    · rw [hother k hk]; exact hops

theorem open_executed (src : Bytes) (c : Command) (n : Bytes) (es : List TextEdit)
    (h : (run sampleHost (openSession src ++ [(sampleChoice, ⟨false, b!"9", .executeCommand (.given (some [c]))⟩)])).sent = [.applyEdit n (commandLabel c) b!"u" es]) :
    Executed sampleHost (openSession src) b!"u" src c es := by
  refine ⟨⟨rfl, rfl⟩, ?_, ?_, sampleChoice, b!"9", n, commandLabel c, h⟩
  · exact .opened [] [] ⟨false, b!"null", .didOpen (.given (b!"u", src))⟩ _ _ ⟨rfl, rfl⟩ (by simp)
  · rintro ⟨y, hy, h1, h2⟩
    simp only [openSession, List.mem_singleton] at hy
    subst hy
    cases h2

/-- One edit on one line of a text. -/
theorem edited_one (pre mid post : Bytes) (x : Bytes) (l b e : Nat) (h1 : breaks pre = l) (h2 : column pre = b)
    (h3 : ¬ (pre.getLast? = some chCR ∧ (mid ++ post).head? = some chLF)) (h4 : breaks (pre ++ mid) = l) (h5 : column (pre ++ mid) = e)
    (h6 : ¬ ((pre ++ mid).getLast? = some chCR ∧ post.head? = some chLF)) :
    Edited (pre ++ mid ++ post) [⟨Lsp.onLine l b e, x⟩] (pre ++ x ++ post) := by
  have ha : At (pre ++ mid ++ post) l b pre.length := ⟨pre, mid ++ post, by simp, rfl, h1, h2, h3⟩
  have hb : At (pre ++ mid ++ post) l e (pre ++ mid).length := ⟨pre ++ mid, post, rfl, rfl, h4, h5, h6⟩
  refine ⟨[⟨pre.length, (pre ++ mid).length, x⟩], ?_, ?_, by simp, by simp, ?_⟩
  · intro e he
    rw [List.mem_singleton.1 he]
    exact ⟨_, List.mem_singleton.2 rfl, l, b, l, _, rfl, ha, hb, rfl⟩
  · intro c hc
    rw [List.mem_singleton.1 hc]
    exact ⟨_, List.mem_singleton.2 rfl, l, b, l, _, rfl, ha, hb, rfl⟩
  · simp only [splice, Nat.sub_zero]
    rw [List.append_assoc pre mid post, List.take_left, ← List.append_assoc pre mid post, List.drop_left]

/-- The hypotheses of `C77_partial` are met, and this is what it says in one case. -/
example : Executed sampleHost (openSession b!"txn 1") b!"u" b!"txn 1" (.valueReplace b!"u" (Lsp.onLine 0 4 5) b!"Fee")
      [⟨Lsp.onLine 0 4 5, b!"Fee"⟩] ∧
    IsFieldNumber (tokens b!"txn 1") { v := b!"1", l := 0, b := 4, e := 5, t := .value } b!"Fee" ∧
    KnownAt 1 b!"txn" b!"Fee" ∧ VersionAt (tokens b!"txn 1") 0 1 ∧
    (process sampleEnv b!"txn 1").map (·.listing) = some [.field .txn 1] ∧
    Edited b!"txn 1" [⟨Lsp.onLine 0 4 5, b!"Fee"⟩] b!"txn Fee" ∧
    (process sampleEnv b!"txn Fee").map (·.listing) = some [.field .txn 1] := by
  refine ⟨open_executed _ _ b!"1" _ (by decide +kernel), ?_, ⟨?_, by decide, by decide +kernel⟩, .first, by decide +kernel,
    edited_one b!"txn " b!"1" [] b!"Fee" 0 4 5 (by decide) (by decide) (by decide) (by decide) (by decide) (by decide), by decide +kernel⟩
  · refine ⟨{ v := b!"txn", l := 0, b := 0, e := 3, t := .value }, [{ v := b!"1", l := 0, b := 4, e := 5, t := .value }], 0, 1,
      by decide +kernel, rfl, ⟨b!"1", [1], by decide, ⟨by decide, by decide⟩, .inl ⟨rfl, by decide⟩⟩, ?_⟩
    exact .txn b!"txn" 1 ⟨b!"Fee", 0, false, some 5⟩ (by decide) (by decide)
  · intro names k hk
    simp [fieldOps] at hk

/-- C77 is false where the version does not have the field: the number is read, the name is not. -/
theorem C77_false : Executed sampleHost (openSession b!"txn 62") b!"u" b!"txn 62" (.valueReplace b!"u" (Lsp.onLine 0 4 6) b!"LastLog")
      [⟨Lsp.onLine 0 4 6, b!"LastLog"⟩] ∧
    Answered sampleHost (openSession b!"txn 62") b!"u" b!"txn 62" (.codeAction ⟨⟨0, 4⟩, ⟨0, 6⟩⟩)
      (.codeActions [⟨b!"Replace with 'LastLog'", b!"Replace with named const", .valueReplace b!"u" (Lsp.onLine 0 4 6) b!"LastLog"⟩]) ∧
    Edited b!"txn 62" [⟨Lsp.onLine 0 4 6, b!"LastLog"⟩] b!"txn LastLog" ∧
    (process sampleEnv b!"txn 62").map (·.listing) = some [.field .txn 62] ∧
    (process sampleEnv b!"txn LastLog").map (·.listing) = some [.empty] :=
  ⟨open_executed _ _ b!"1" _ (by decide +kernel), open_answered _ _ _ (by decide +kernel),
    edited_one b!"txn " b!"62" [] b!"LastLog" 0 4 6 (by decide) (by decide) (by decide) (by decide) (by decide) (by decide),
    by decide +kernel, by decide +kernel⟩

theorem hex_head {t : Token} {s : Bytes} (h : t.v = b!"0x" ++ s) : t.v.head? ≠ some chQuote := by
  rw [h]; simp [chQuote]

/-- **C78** (partial: for byte constants that were read, without backslashes, in texts whose strings do
not contain line breaks; see `C78_false` for others.)  The text after the fix that writes bytes given
in hex as a string is read to the same program. -/
theorem C78_partial (h : Host) (ms : List (Choice × Msg)) (u src : Bytes) (t : Token) (bs : Bytes) (es : List TextEdit)
    (ha : Executed h ms u src (.valueReplace u (Lsp.onLine t.l t.b t.e) (quoted bs)) es) (ht : IsHexText (tokens src) t bs)
    (hc : IsByteConstant (tokens src) t) (hslash : ∀ x ∈ bs, x ≠ 92)
    (hone : ∀ t ∈ tokens src, t.t = .value → ∀ x ∈ t.v, ¬ Break x)
    (env : Env) (r : ProcessResult) (hr : process env src = some r) (hs : NoSurplus r) (hread : r.listing[t.l]? ≠ some .empty) :
    ∃ src', Edited src es src' ∧ ∃ r', process env src' = some r' ∧ r'.listing = r.listing ∧ r'.version = r.version := by
  obtain ⟨-, rfl⟩ := executed_replace ha
  obtain ⟨htw, ⟨s, hv, hx⟩, -⟩ := ht
  obtain ⟨w, rest, i, hw, hi, hop, hprev⟩ := hc
  have hm := mem_words.1 htw
  obtain ⟨src', h1, h2, h3⟩ := replace_word hm.1 hm.2.2 (hex_head hv) (writes_quoted hslash) hone
  refine ⟨src', h1, ?_⟩
  have hother : ∀ k, k ≠ t.l → (words (tokens src') k).map Token.v = (words (tokens src) k).map Token.v := by
    intro k hk
    rw [h3 k]
    refine List.map_congr_left fun s hs => if_neg ?_
    rintro rfl
    exact hk (mem_words.1 hs).2.1.symm
  have hline : (words (tokens src') t.l).map Token.v = w.v :: (rest.map Token.v).set i (34 :: (bs ++ [34])) := by
    rw [h3 t.l, map_replace hw hi]
  have hold : (words (tokens src) t.l).map Token.v = w.v :: rest.map Token.v := by rw [hw]; rfl
  have hpr : w.v ≠ b!"#pragma" := by
    intro he
    rw [he] at hop
    revert hop; decide
  refine program_replaced hr hs h2 ?_ ?_
  · intro k v
    by_cases hk : k = t.l
    · subst hk
      rw [hline, hold]
      exact sets_head hpr _ _ _
    · rw [hother k hk]
  · intro k ver o ho hver hops
    by_cases hk : k = t.l
    · subst hk
      rw [hold] at hops
      rw [hline]
      have hne : o ≠ .empty := by rintro rfl; exact hread ho
      refine ops_bytes hops hne hop (x := t.v) (by rw [List.getElem?_map, hi]; rfl) ?_ ?_ ?_
      · intro ws
        rw [bytesAt_string bs bs (denotes_self hslash), hv, bytesAt_hex, (hexDecode_iff s bs).2 hx]; rfl
      · rw [hv]; simp
      · intro p hp
        rw [← List.map_cons, List.getElem?_map] at hp
        obtain ⟨q, hq, rfl⟩ := Option.map_eq_some_iff.1 hp
        exact hprev q hq
    · rw [hother k hk]; exact hops

/-- The hypotheses of `C78_partial` are met, and this is what it says in one case. -/
example : Executed sampleHost (openSession b!"byte 0x4122") b!"u" b!"byte 0x4122"
      (.valueReplace b!"u" (Lsp.onLine 0 5 11) (quoted b!"A\"")) [⟨Lsp.onLine 0 5 11, quoted b!"A\""⟩] ∧
    IsHexText (tokens b!"byte 0x4122") { v := b!"0x4122", l := 0, b := 5, e := 11, t := .value } b!"A\"" ∧
    IsByteConstant (tokens b!"byte 0x4122") { v := b!"0x4122", l := 0, b := 5, e := 11, t := .value } ∧
    (process sampleEnv b!"byte 0x4122").map (·.listing) = some [.byte b!"A\""] ∧
    Edited b!"byte 0x4122" [⟨Lsp.onLine 0 5 11, quoted b!"A\""⟩] b!"byte \"A\\\"\"" ∧
    (process sampleEnv b!"byte \"A\\\"\"").map (·.listing) = some [.byte b!"A\""] := by
  refine ⟨open_executed _ _ b!"1" _ (by decide +kernel), ?_, ?_, by decide +kernel,
    edited_one b!"byte " b!"0x4122" [] (quoted b!"A\"") 0 5 11 (by decide) (by decide) (by decide) (by decide) (by decide) (by decide),
    by decide +kernel⟩
  · exact ⟨by decide +kernel, ⟨b!"4122", rfl, (hexDecode_iff _ _).1 (by decide +kernel)⟩, by decide⟩
  · refine ⟨{ v := b!"byte", l := 0, b := 0, e := 4, t := .value }, [{ v := b!"0x4122", l := 0, b := 5, e := 11, t := .value }], 0,
      by decide +kernel, rfl, by decide, ?_⟩
    intro p hp
    simp only [List.getElem?_cons_zero, Option.some.injEq] at hp
    subst hp
    decide

/-- C78 is false for bytes with a backslash, which are not escaped: `\n` for the two bytes 5c 6e is
the one byte 0a.  It is also false for words that are no byte constants: the fix is offered for the
integer `0x41`, which becomes a string. -/
theorem C78_false :
    (Answered sampleHost (openSession b!"byte 0x5c6e") b!"u" b!"byte 0x5c6e" (.codeAction ⟨⟨0, 5⟩, ⟨0, 5⟩⟩)
      (.codeActions [⟨b!"Replace with literal '\\n'", b!"Replace with literal", .valueReplace b!"u" (Lsp.onLine 0 5 11) (quoted b!"\\n")⟩]) ∧
    Executed sampleHost (openSession b!"byte 0x5c6e") b!"u" b!"byte 0x5c6e"
      (.valueReplace b!"u" (Lsp.onLine 0 5 11) (quoted b!"\\n")) [⟨Lsp.onLine 0 5 11, quoted b!"\\n"⟩] ∧
    Edited b!"byte 0x5c6e" [⟨Lsp.onLine 0 5 11, quoted b!"\\n"⟩] b!"byte \"\\n\"" ∧
    (process sampleEnv b!"byte 0x5c6e").map (·.listing) = some [.byte b!"\\n"] ∧
    (process sampleEnv b!"byte \"\\n\"").map (·.listing) = some [.byte b!"\n"]) ∧
    Answered sampleHost (openSession b!"int 0x41") b!"u" b!"int 0x41" (.codeAction ⟨⟨0, 4⟩, ⟨0, 4⟩⟩)
      (.codeActions [⟨b!"Replace with literal 'A'", b!"Replace with literal", .valueReplace b!"u" (Lsp.onLine 0 4 8) (quoted b!"A")⟩]) ∧
    Executed sampleHost (openSession b!"int 0x41") b!"u" b!"int 0x41"
      (.valueReplace b!"u" (Lsp.onLine 0 4 8) (quoted b!"A")) [⟨Lsp.onLine 0 4 8, quoted b!"A"⟩] ∧
    Edited b!"int 0x41" [⟨Lsp.onLine 0 4 8, quoted b!"A"⟩] b!"int \"A\"" ∧
    (process sampleEnv b!"int 0x41").map (·.listing) = some [.int 65] ∧
    (process sampleEnv b!"int \"A\"").map (·.listing) = some [.empty] := by
  refine ⟨⟨open_answered _ _ _ (by decide +kernel), open_executed _ _ b!"1" _ (by decide +kernel),
    edited_one b!"byte " b!"0x5c6e" [] (quoted b!"\\n") 0 5 11 (by decide) (by decide) (by decide) (by decide) (by decide) (by decide),
    by decide +kernel, by decide +kernel⟩, open_answered _ _ _ (by decide +kernel), open_executed _ _ b!"1" _ (by decide +kernel),
    edited_one b!"int " b!"0x41" [] (quoted b!"A") 0 4 8 (by decide) (by decide) (by decide) (by decide) (by decide) (by decide),
    by decide +kernel, by decide +kernel⟩

end Teal.Props
