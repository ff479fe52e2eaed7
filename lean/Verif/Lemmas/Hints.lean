import Verif.Spec.Hints
import Verif.Lemmas.Rename
import Verif.Lemmas.Atoi
import Verif.Props.Edit

/-! # Hints: what the code looks up -/

namespace Teal.Lsp

open Teal Teal.Spec Teal.Lsp.Spec Teal.Props

theorem str_pos (g : FieldGroup) : ∀ s ∈ g.specs, g.str s.field ≠ [] := by cases g <;> decide +kernel

/-- The names of a group's fields. -/
theorem groupName_iff (g : FieldGroup) (p : FieldSpec → Bool) (n : Nat) (name : Bytes) :
    (name ≠ [] ∧ (if (g.specs.filter p).any (fun s => (s.field : Int) == n) then g.str n else []) = name) ↔
      ∃ s d, g.specs[n]? = some s ∧ p s = true ∧ (documented g)[n]? = some d ∧ d.name = name := by
  have hord : ∀ s ∈ g.specs, g.specs[s.field]? = some s := by
    intro s hs
    obtain ⟨i, hi⟩ := List.mem_iff_getElem?.1 hs
    obtain ⟨-, h⟩ := mem_specs_of_index g i s hi
    rw [h]; exact hi
  constructor
  · rintro ⟨hne, h⟩
    split at h
    · rename_i ha
      obtain ⟨s, hs, he⟩ := List.any_eq_true.1 ha
      obtain ⟨hs, hp⟩ := List.mem_filter.1 hs
      have he : s.field = n := Int.ofNat_inj.1 (by simpa using he)
      have h1 := hord s hs
      rw [he] at h1
      have h2 := congrArg (fun l => l[n]?) (documented_specs g)
      simp only [List.getElem?_map, h1, Option.map_some] at h2
      obtain ⟨d, h3, h4⟩ := Option.map_eq_some_iff.1 h2
      simp only [Prod.mk.injEq] at h4
      exact ⟨s, d, h1, hp, h3, by rw [h4.1, he, h]⟩
    · exact absurd h.symm hne
  · rintro ⟨s, d, hs, hp, hd, rfl⟩
    obtain ⟨s', h1, h2, -⟩ := documented_spec g n d hd
    have hm := List.mem_of_getElem? hs
    have hf := (mem_specs_of_index g n s hs).2
    constructor
    · rw [← h2, ← hf]; exact str_pos g s hm
    · rw [if_pos, h2]
      exact List.any_eq_true.2 ⟨s, List.mem_filter.2 ⟨hm, hp⟩, by rw [hf]; simp⟩

/-- The operands that are fields, by opcode. -/
def argRow (e : OpEntry) (i : Nat) : Bool :=
  match e.shape.args[i]? with
  | some ⟨.field (.group g), _⟩ => decide (i = 0) && fieldOps.any fun x => decide (x.1 = e.name) && decide (x.2.1 = documented g)
  | some ⟨.field (.txn .txn), _⟩ => (decide (i = 0) && decide (e.name ∈ [b!"txn", b!"gtxns", b!"itxn"])) ||
      (decide (i = 1) && decide (e.name ∈ [b!"gtxn", b!"gitxn"]))
  | some ⟨.field (.txn .itxn), _⟩ => decide (i = 0) && decide (e.name = b!"itxn_field")
  | some ⟨.field (.txn .txna), _⟩ =>
    (decide (i = 0) && decide (e.name ∈ [b!"txna", b!"gtxnsa", b!"itxna", b!"txnas", b!"gtxnsas", b!"itxnas"])) ||
      (decide (i = 1) && decide (e.name ∈ [b!"gtxna", b!"gitxna", b!"gtxnas", b!"gitxnas"]))
  | _ => true

theorem argRows : ∀ e ∈ opsList, ∀ i : Nat, argRow e i = true := by
  have h3 : ∀ e ∈ opsList, e.shape.args.length ≤ 3 := by decide +kernel
  have h : ∀ e ∈ opsList, ∀ i ∈ [0, 1, 2], argRow e i = true := by decide +kernel
  intro e he i
  by_cases hi : i < 3
  · exact h e he i (by simp; omega)
  · unfold argRow
    rw [List.getElem?_eq_none (by have := h3 e he; omega)]

theorem fieldOps_args : ∀ x ∈ fieldOps, ∃ g, (opsGet x.1).map (·.shape.args) = some [⟨.field (.group g), false⟩] ∧ documented g = x.2.1 := by
  intro x hx
  obtain ⟨g, h1, h2⟩ := field_rows x hx
  obtain ⟨e, h3, h4⟩ := shape_of h1
  exact ⟨g, by rw [h3, Option.map_some, h4]; rfl, h2⟩

theorem txn_name {p : FieldSpec → Bool} {q : DocTxnField → Prop}
    (hpq : ∀ s d, s.array = d.array → (if s.itxVersion = 0 then none else some s.itxVersion) = d.inner → (p s = true ↔ q d)) (n : Nat) (name : Bytes) :
    (∃ s d, FieldGroup.txn.specs[n]? = some s ∧ p s = true ∧ (documented .txn)[n]? = some d ∧ d.name = name) ↔
      ∃ d, txnFields[n]? = some d ∧ q d ∧ d.name = name := by
  constructor
  · rintro ⟨s, d, h1, h2, h3, rfl⟩
    simp only [documented, List.getElem?_map] at h3
    obtain ⟨d', h4, rfl⟩ := Option.map_eq_some_iff.1 h3
    obtain ⟨s', k1, -, -, k2, k3⟩ := txnFields_spec n d' h4
    have : s' = s := Option.some.inj (k1.symm.trans h1)
    subst this
    exact ⟨d', h4, (hpq s' d' k2 k3).1 h2, rfl⟩
  · rintro ⟨d, h1, h2, rfl⟩
    obtain ⟨s', k1, -, -, k2, k3⟩ := txnFields_spec n d h1
    exact ⟨s', ⟨d.name, d.since⟩, k1, (hpq s' d k2 k3).2 h2, by simp [documented, h1], rfl⟩

theorem filter_true {α : Type} (l : List α) : l.filter (fun _ => true) = l := by simp

/-- Which name the code looks up for an operand. -/
theorem fieldName_iff {w : Bytes} {i n : Nat} {name : Bytes} :
    FieldName w i n name ↔ ∃ e a, opsGet w = some e ∧ e.shape.args[i]? = some a ∧ name ≠ [] ∧ argFieldName a.type n = name := by
  have hgroup : ∀ g, argFieldName (.field (.group g)) n =
      if (g.specs.filter fun _ => true).any (fun s => (s.field : Int) == n) then g.str n else [] := by
    intro g
    rw [filter_true]
    simp only [argFieldName, FieldReader.rows, FieldReader.table, List.any_map]
    rfl
  have htxn : argFieldName (.field (.txn .txn)) n =
      if (FieldGroup.txn.specs.filter fun _ => true).any (fun s => (s.field : Int) == n) then FieldGroup.txn.str n else [] := by
    rw [filter_true]
    simp only [argFieldName, FieldReader.rows, FieldReader.table, List.any_map]
    rfl
  have htxna : argFieldName (.field (.txn .txna)) n =
      if (FieldGroup.txn.specs.filter (·.array)).any (fun s => (s.field : Int) == n) then FieldGroup.txn.str n else [] := by
    simp only [argFieldName, FieldReader.rows, FieldReader.table, List.any_map]
    rfl
  have hitxn : argFieldName (.field (.txn .itxn)) n =
      if (FieldGroup.txn.specs.filter fun s => decide (s.itxVersion > 0)).any (fun s => (s.field : Int) == n) then FieldGroup.txn.str n else [] := by
    simp only [argFieldName, FieldReader.rows, FieldReader.table, List.any_map]
    rfl
  have qall := txn_name (p := fun _ => true) (q := fun _ => True) (by simp) n name
  have qarr := txn_name (p := (·.array)) (q := fun d => d.array = true) (by intro s d h _; simp [h]) n name
  have qinn := txn_name (p := fun s => decide (s.itxVersion > 0)) (q := fun d => d.inner ≠ none)
    (by intro s d _ h; rw [← h]; by_cases hz : s.itxVersion = 0 <;> simp [hz]; omega) n name
  constructor
  · intro h
    have key : ∀ (r : FieldReader) (i : Nat), ((opsGet w).bind fun e => e.shape.args[i]?) = some ⟨.field r, false⟩ →
        name ≠ [] ∧ argFieldName (.field r) n = name →
        ∃ e a, opsGet w = some e ∧ e.shape.args[i]? = some a ∧ name ≠ [] ∧ argFieldName a.type n = name := by
      intro r i h1 h2
      obtain ⟨e, h3, h4⟩ := Option.bind_eq_some_iff.1 h1
      exact ⟨e, _, h3, h4, h2.1, h2.2⟩
    cases h with
    | field w names k n d h hd =>
      obtain ⟨g, h1, h2⟩ := fieldOps_args _ h
      obtain ⟨e, h3, h4⟩ := Option.map_eq_some_iff.1 h1
      refine key (.group g) 0 (by rw [h3, Option.bind_some, h4]; rfl) ?_
      rw [hgroup, groupName_iff]
      simp only at h2
      rw [← h2] at hd
      obtain ⟨s, h5, -⟩ := documented_spec g n d hd
      exact ⟨s, d, h5, rfl, hd, rfl⟩
    | txn w n d h hd =>
      refine key (.txn .txn) 0 ?_ ?_
      · clear key; revert h; revert w; decide +kernel
      · rw [htxn, groupName_iff]; exact qall.2 ⟨d, hd, trivial, rfl⟩
    | inner n d hd hi =>
      refine key (.txn .itxn) 0 ?_ ?_
      · decide +kernel
      · rw [hitxn, groupName_iff]; exact qinn.2 ⟨d, hd, hi, rfl⟩
    | array w n d h hd ha =>
      refine key (.txn .txna) 0 ?_ ?_
      · clear key; revert h; revert w; decide +kernel
      · rw [htxna, groupName_iff]; exact qarr.2 ⟨d, hd, ha, rfl⟩
    | group w n d h hd =>
      refine key (.txn .txn) 1 ?_ ?_
      · clear key; revert h; revert w; decide +kernel
      · rw [htxn, groupName_iff]; exact qall.2 ⟨d, hd, trivial, rfl⟩
    | groupArray w n d h hd ha =>
      refine key (.txn .txna) 1 ?_ ?_
      · clear key; revert h; revert w; decide +kernel
      · rw [htxna, groupName_iff]; exact qarr.2 ⟨d, hd, ha, rfl⟩
  · rintro ⟨e, a, he, ha, hne, hn⟩
    obtain ⟨hm, rfl⟩ := opsGet_mem he
    have hrow := argRows e hm i
    unfold argRow at hrow
    rw [ha] at hrow
    obtain ⟨ty, arr⟩ := a
    cases ty with
    | field r =>
      simp only at hn
      cases r with
      | group g =>
        simp only [Bool.and_eq_true, decide_eq_true_eq, List.any_eq_true] at hrow
        obtain ⟨rfl, ⟨w, names, k⟩, h1, h2, h3⟩ := hrow
        simp only at h2 h3
        subst h2 h3
        rw [hgroup] at hn
        obtain ⟨s, d, -, -, h4, rfl⟩ := (groupName_iff g _ n name).1 ⟨hne, hn⟩
        exact .field _ _ k n d h1 h4
      | txn c =>
        cases c with
        | txn =>
          rw [htxn] at hn
          obtain ⟨d, h4, -, rfl⟩ := qall.1 ((groupName_iff .txn _ n name).1 ⟨hne, hn⟩)
          simp only [Bool.or_eq_true, Bool.and_eq_true, decide_eq_true_eq] at hrow
          rcases hrow with ⟨rfl, h1⟩ | ⟨rfl, h1⟩
          · exact .txn _ n d h1 h4
          · exact .group _ n d h1 h4
        | itxn =>
          rw [hitxn] at hn
          obtain ⟨d, h4, h5, rfl⟩ := qinn.1 ((groupName_iff .txn _ n name).1 ⟨hne, hn⟩)
          simp only [Bool.and_eq_true, decide_eq_true_eq] at hrow
          obtain ⟨rfl, h1⟩ := hrow
          rw [h1]
          exact .inner n d h4 h5
        | txna =>
          rw [htxna] at hn
          obtain ⟨d, h4, h5, rfl⟩ := qarr.1 ((groupName_iff .txn _ n name).1 ⟨hne, hn⟩)
          simp only [Bool.or_eq_true, Bool.and_eq_true, decide_eq_true_eq] at hrow
          rcases hrow with ⟨rfl, h1⟩ | ⟨rfl, h1⟩
          · exact .array _ n d h1 h4 h5
          · exact .groupArray _ n d h1 h4 h5
    | _ => exact absurd hn.symm hne

theorem mem_window {α : Type} {l : List α} {a b : Nat} {x : α} : x ∈ (l.take a).drop b ↔ ∃ k, b ≤ k ∧ k < a ∧ l[k]? = some x := by
  rw [List.mem_iff_getElem?]
  constructor
  · rintro ⟨k, h⟩
    rw [List.getElem?_drop, List.getElem?_take] at h
    split at h
    · exact ⟨b + k, by omega, by assumption, h⟩
    · cases h
  · rintro ⟨k, h1, h2, h3⟩
    refine ⟨k - b, ?_⟩
    rw [List.getElem?_drop, show b + (k - b) = k by omega, List.getElem?_take, if_pos h2, h3]

theorem argFieldName_nat {ty : ArgType} {v : Int} {name : Bytes} (h : argFieldName ty v = name) (hne : name ≠ []) : ∃ n : Nat, v = n := by
  cases ty with
  | field r =>
    simp only [argFieldName] at h
    split at h
    · rename_i ha
      obtain ⟨s, -, he⟩ := List.any_eq_true.1 ha
      exact ⟨s.1.field, (by simpa using he : (s.1.field : Int) = v).symm⟩
    · exact absurd h.symm hne
  | _ => exact absurd h.symm hne

theorem row_field (g : FieldGroup) : ∀ s ∈ g.specs, s.field < 256 := by cases g <;> decide +kernel

theorem fieldName_lt {w : Bytes} {i n : Nat} {name : Bytes} (h : FieldName w i n name) : n < 256 := by
  have key : ∀ (g : FieldGroup) d, (documented g)[n]? = some d → n < 256 := by
    intro g d hd
    obtain ⟨s, hs, -⟩ := documented_spec g n d hd
    have := mem_specs_of_index g n s hs
    rw [← this.2]; exact row_field g s this.1
  have ktxn : ∀ d, txnFields[n]? = some d → n < 256 := fun d hd => key .txn ⟨d.name, d.since⟩ (by simp [documented, hd])
  cases h with
  | field w names k n d h hd =>
    obtain ⟨g, -, h2⟩ := fieldOps_args _ h
    simp only at h2
    rw [← h2] at hd
    exact key g d hd
  | txn w n d h hd => exact ktxn d hd
  | inner n d hd => exact ktxn d hd
  | array w n d h hd => exact ktxn d hd
  | group w n d h hd => exact ktxn d hd
  | groupArray w n d h hd => exact ktxn d hd

theorem namedHint_iff {w : Bytes} {e : OpEntry} (he : opsGet w = some e) {i : Nat} {t t' : Token} {name : Bytes} :
    namedHint e.shape.args i t = some ⟨t', name⟩ ↔ t' = t ∧ ∃ j n : Nat, i = j + 1 ∧ SignedDecimal t.v n ∧ FieldName w j n name := by
  constructor
  · intro h
    unfold namedHint at h
    split at h
    · cases h
    · rename_i hi
      split at h
      · cases h
      · rename_i a ha
        split at h
        · cases h
        · rename_i iv hv
          dsimp only at h
          split at h
          · cases h
          · rename_i hne
            simp only [Option.some.injEq, NamedHint.mk.injEq] at h
            obtain ⟨rfl, rfl⟩ := h
            obtain ⟨n, rfl⟩ := argFieldName_nat rfl hne
            exact ⟨rfl, i - 1, n, by omega, ((atoi_iff _ _).1 hv).1, fieldName_iff.2 ⟨e, a, he, ha, hne, rfl⟩⟩
  · rintro ⟨rfl, j, n, rfl, hd, hf⟩
    have hlt := fieldName_lt hf
    obtain ⟨e', a, h1, h2, h3, h4⟩ := fieldName_iff.1 hf
    rw [he] at h1
    cases h1
    unfold namedHint
    rw [if_neg (by omega), show j + 1 - 1 = j by omega, h2, (atoi_iff t'.v n).2 ⟨hd, by omega, by omega⟩]
    dsimp only
    rw [h4, if_neg h3]

theorem decodedHint_iff {t t' : Token} {bs : Bytes} :
    decodedHint t = some ⟨t', bs⟩ ↔ t' = t ∧ t.t = .value ∧ (∃ s, t.v = b!"0x" ++ s ∧ HexOf s bs) ∧ ∀ x ∈ bs, 32 ≤ x ∧ x ≤ 126 := by
  constructor
  · intro h
    unfold decodedHint at h
    split at h
    · cases h
    · rename_i ht
      split at h
      · rename_i hp
        obtain ⟨s, hs⟩ := (hasPrefix_iff _ _).1 hp
        split at h
        · cases h
        · rename_i ds hx
          split at h
          · rename_i hpr
            simp only [Option.some.injEq, DecodedHint.mk.injEq] at h
            obtain ⟨rfl, rfl⟩ := h
            refine ⟨rfl, Classical.not_not.1 ht, ⟨s, hs, ?_⟩, ?_⟩
            · rw [hs] at hx; exact (hexDecode_iff _ _).1 hx
            · intro x hx
              have := List.all_eq_true.1 hpr x hx
              simpa using this
          · cases h
      · cases h
  · rintro ⟨rfl, ht, ⟨s, hs, hx⟩, hpr⟩
    unfold decodedHint
    rw [if_neg (by simp [ht]), if_pos ((hasPrefix_iff _ _).2 ⟨s, hs⟩), hs]
    rw [show (b!"0x" ++ s).drop 2 = s from rfl, (hexDecode_iff _ _).2 hx]
    dsimp only
    rw [if_pos]
    refine List.all_eq_true.2 fun x hx => ?_
    simpa using hpr x hx

/-- The two lists of hints, on the words of the text. -/
theorem inlayHints_mem {env : Env} {src : Bytes} {r : ProcessResult} (hr : process env src = some r) {rg : Rg}
    {hs : List NamedHint × List DecodedHint} (h : Teal.inlayHints r rg.range = some hs) :
    (∀ t name, ⟨t, name⟩ ∈ hs.1 ↔ IsFieldNumber (tokens src) t name ∧ rg.start.line ≤ t.l ∧ t.l ≤ rg.stop.line ∧
      Overlaps t.range rg.range = true) ∧
    ∀ t bs, ⟨t, bs⟩ ∈ hs.2 ↔ IsHexText (tokens src) t bs ∧ rg.start.line ≤ t.l ∧ t.l ≤ rg.stop.line ∧
      Overlaps t.range rg.range = true := by
  obtain ⟨os, hrun, ha⟩ := process_run hr
  obtain ⟨-, -, -, -, -, -, -, hl, -⟩ := assemble_eq ha
  unfold Teal.inlayHints at h
  split at h
  · cases h
  rename_i hneg
  simp only [Option.some.injEq] at h
  subst h
  have hwin : ∀ line, line ∈ (r.lines.take (rg.range.endLine + 1).toNat).drop rg.range.startLine.toNat ↔
      ∃ k : Nat, rg.start.line ≤ k ∧ k ≤ rg.stop.line ∧ k < lineCount (tokens src) ∧ line = lineTokens (tokens src) k := by
    intro line
    rw [mem_window, hl]
    simp only [linesOf_get]
    show (∃ k, rg.start.line.toNat ≤ k ∧ k < (rg.stop.line + 1).toNat ∧ _) ↔ _
    have hneg : ¬ (rg.start.line < 0 ∧ rg.start.line ≤ rg.stop.line) := hneg
    constructor
    · rintro ⟨k, h1, h2, h3, h4⟩; exact ⟨k, by omega, by omega, h3, h4⟩
    · rintro ⟨k, h1, h2, h3, h4⟩; exact ⟨k, by omega, by omega, h3, h4⟩
  have hzip : ∀ (l : List Token) (t : Token) (i : Nat), (t, i) ∈ l.zipIdx.filter (fun p => Overlaps p.1.range rg.range) ↔
      l[i]? = some t ∧ Overlaps t.range rg.range = true := by
    intro l t i
    rw [List.mem_filter, List.mk_mem_zipIdx_iff_getElem?]
  constructor
  · intro t name
    simp only [List.mem_flatMap, List.mem_map]
    constructor
    · rintro ⟨x, ⟨line, hline, rfl⟩, hmem⟩
      obtain ⟨k, h1, h2, h3, rfl⟩ := (hwin line).1 hline
      unfold lineHints at hmem
      cases hlt : lineTokens (tokens src) k with
      | nil => rw [hlt] at hmem; simp [lineArgs] at hmem
      | cons w rest =>
        rw [hlt] at hmem
        simp only [lineArgs] at hmem
        cases he : opsGet w.v with
        | none => rw [he] at hmem; simp at hmem
        | some e =>
          rw [he] at hmem
          simp only [Option.map_some] at hmem
          obtain ⟨⟨t', i⟩, hp, hn⟩ := List.mem_filterMap.1 hmem
          obtain ⟨hp, hov⟩ := (hzip _ _ _).1 hp
          obtain ⟨rfl, j, n, rfl, hd, hf⟩ := (namedHint_iff he).1 hn
          have hok := lineOk (readTokens_seq src) k
          rw [show lineTokens (readTokens src).1 k = _ from hlt] at hok
          have htl := (hok.mem t (List.mem_of_getElem? hp)).1
          have hw : words (tokens src) k = w :: rest := by
            unfold lineTokens at hlt
            split at hlt
            · rename_i hnil
              rcases hok.shape with ⟨c, hc, -⟩ | hv
              · rw [hc] at hp; simp at hp
              · have hwv := (hv w (by simp)).1
                have := (mem_comments.1 (show w ∈ comments (tokens src) k by rw [hlt]; simp)).2.2
                rw [hwv] at this; cases this
            · exact hlt
          refine ⟨⟨w, rest, j, n, by rw [htl]; exact hw, by simpa using hp, hd, hf⟩, by rw [htl]; exact h1, by rw [htl]; exact h2, hov⟩
    · rintro ⟨⟨w, rest, j, n, hw, hj, hd, hf⟩, h1, h2, hov⟩
      obtain ⟨e, a, he, -⟩ := fieldName_iff.1 hf
      refine ⟨_, ⟨_, (hwin _).2 ⟨t.l, h1, h2, words_lt (by rw [hw]; simp), rfl⟩, rfl⟩, ?_⟩
      unfold lineHints
      rw [(lineTokens_words _ _ _ _ hw).1]
      simp only [lineArgs, he, Option.map_some]
      exact List.mem_filterMap.2 ⟨(t, j + 1), (hzip _ _ _).2 ⟨by simpa using hj, hov⟩, (namedHint_iff he).2 ⟨rfl, j, n, rfl, hd, hf⟩⟩
  · intro t bs
    simp only [List.mem_flatMap, List.mem_map]
    constructor
    · rintro ⟨x, ⟨line, hline, rfl⟩, hmem⟩
      obtain ⟨k, h1, h2, h3, rfl⟩ := (hwin line).1 hline
      unfold lineHints at hmem
      obtain ⟨⟨t', i⟩, hp, hn⟩ := List.mem_filterMap.1 hmem
      obtain ⟨hp, hov⟩ := (hzip _ _ _).1 hp
      obtain ⟨rfl, hv, hx, hpr⟩ := decodedHint_iff.1 hn
      have hm := List.mem_of_getElem? hp
      have htl := ((lineOk (readTokens_seq src) k).mem t hm).1
      have hw : t ∈ words (tokens src) k := by
        unfold lineTokens at hm
        split at hm
        · have := (mem_comments.1 hm).2.2
          rw [hv] at this; cases this
        · exact hm
      exact ⟨⟨by rw [htl]; exact hw, hx, hpr⟩, by rw [htl]; exact h1, by rw [htl]; exact h2, hov⟩
    · rintro ⟨⟨hw, hx, hpr⟩, h1, h2, hov⟩
      obtain ⟨i, hi⟩ := List.mem_iff_getElem?.1 hw
      cases hws : words (tokens src) t.l with
      | nil => rw [hws] at hw; cases hw
      | cons w rest =>
        refine ⟨_, ⟨_, (hwin _).2 ⟨t.l, h1, h2, words_lt (by rw [hws]; simp), rfl⟩, rfl⟩, ?_⟩
        unfold lineHints
        rw [(lineTokens_words _ _ _ _ hws).1]
        refine List.mem_filterMap.2 ⟨(t, i), (hzip _ _ _).2 ⟨by rw [← hws]; exact hi, hov⟩, ?_⟩
        exact decodedHint_iff.2 ⟨rfl, (mem_words.1 hw).2.2, hx, hpr⟩

/-- What is sent when a command is executed. -/
theorem executed {h : Host} {ms : List (Choice × Msg)} {u t : Bytes} {c : Command} {es : List TextEdit} (ha : Executed h ms u t c es) :
    ∃ (ch : Choice) (d : Doc) (n label : Bytes) (st : Step), (run h ms).st.docs u = some d ∧ d.s = t ∧
      execute h ch (run h ms).st c = some st ∧ st.sent = [.applyEdit n label u es] ∧
      ∀ st' r, results h ch (run h ms).st u d = some (st', r) → ∃ mp, process ⟨h.addrOk, mp⟩ t = some r := by
  obtain ⟨hrun, hopen, hup, ch, id, n, label, hs⟩ := ha
  have hsh : (run h ms).st.shutdown = false := by
    rw [← Bool.not_eq_true, shutdown_iff h ms hrun]; exact hup
  have inv := session_inv h ms hrun hsh
  obtain ⟨d, hd, rfl⟩ := (inv.texts u t).1 hopen
  rw [run_running hrun] at hs
  simp only [handle, handleRequest, hsh, Bool.false_eq_true, if_false] at hs
  cases hx : execute h ch (run h ms).st c with
  | none => rw [hx] at hs; simp at hs
  | some st =>
    rw [hx] at hs
    refine ⟨ch, d, n, label, st, hd, rfl, hx, by simpa using hs, ?_⟩
    intro st' r hres
    rcases results_spec hres with ⟨h1, _⟩ | ⟨_, h1, _⟩
    · obtain ⟨x, _, hp⟩ := inv.cache u d r hd h1
      exact ⟨_, hp⟩
    · exact ⟨_, h1⟩

theorem executed_replace {h : Host} {ms : List (Choice × Msg)} {u t : Bytes} {u' : Bytes} {rg : Rg} {v : Bytes} {es : List TextEdit}
    (ha : Executed h ms u t (.valueReplace u' rg v) es) : u' = u ∧ es = [⟨rg, v⟩] := by
  obtain ⟨ch, d, n, label, st, h1, h2, h3, h4, -⟩ := executed ha
  simp only [execute] at h3
  split at h3
  · cases h3; cases h4
  · cases h3
    simp only [request, List.cons.injEq, Sent.applyEdit.injEq, and_true] at h4
    exact ⟨h4.2.2.1, h4.2.2.2.symm⟩

/-! ## Replacing one word -/

def wordPlan (t : Token) (x w : Bytes) : Plan := fun s => if s = t then some (t.v.length, x, w) else none

theorem wordPlan_value (t : Token) (x w : Bytes) (s : Token) : (wordPlan t x w).value s = if s = t then w else s.v := by
  unfold Plan.value wordPlan
  by_cases h : s = t
  · rw [if_pos h, if_pos h]
  · rw [if_neg h, if_neg h]

/-- Replacing an unquoted word by a word. -/
theorem replace_token {src : Bytes} {t : Token} {x w : Bytes} (ht : t ∈ tokens src) (hv : t.t = .value) (hq : t.v.head? ≠ some chQuote)
    (hw : Writes x w) (hone : ∀ t ∈ tokens src, t.t = .value → ∀ x ∈ t.v, ¬ Break x) :
    ∃ src', Edited src [⟨Lsp.onLine t.l t.b t.e, x⟩] src' ∧ lineCount (tokens src') = lineCount (tokens src) ∧
      (∀ k, (words (tokens src') k).map Token.v = (words (tokens src) k).map fun s => if s = t then w else s.v) ∧
      ∀ k, (comments (tokens src') k).map Token.v = (comments (tokens src) k).map Token.v := by
  have hfits : ∀ s ∈ tokens src, (wordPlan t x w).Fits s := by
    intro s hs k x' w' hf
    unfold wordPlan at hf
    split at hf
    · rename_i he
      subst he
      simp only [Option.some.injEq, Prod.mk.injEq] at hf
      obtain ⟨rfl, rfl, rfl⟩ := hf
      exact ⟨hv, hq, Nat.le_refl _, by rw [List.drop_length, List.append_nil]; exact hw⟩
    · cases hf
  have hes : ∀ e, e ∈ [(⟨Lsp.onLine t.l t.b t.e, x⟩ : TextEdit)] ↔ ∃ s ∈ tokens src, ∃ k x' w', wordPlan t x w s = some (k, x', w') ∧
      e = ⟨Lsp.onLine s.l s.b ((s.b + k : Nat) : Int), x'⟩ := by
    intro e
    rw [List.mem_singleton]
    have hb := bare_width ht hv hq
    constructor
    · rintro rfl
      exact ⟨t, ht, t.v.length, x, w, by simp [wordPlan], by rw [hb]⟩
    · rintro ⟨s, hs, k, x', w', hf, rfl⟩
      unfold wordPlan at hf
      split at hf
      · rename_i he
        subst he
        simp only [Option.some.injEq, Prod.mk.injEq] at hf
        obtain ⟨rfl, rfl, rfl⟩ := hf
        rw [hb]
      · cases hf
  obtain ⟨src', h1, h2, h3, h4⟩ := edit_tokens (wordPlan t x w) src hfits hone _ hes
  refine ⟨src', h1, h2, fun k => ?_, fun k => ?_⟩
  · rw [h3 k]
    exact List.map_congr_left fun s _ => wordPlan_value t x w s
  · rw [h4 k]
    refine List.map_congr_left fun s hs => ?_
    rw [wordPlan_value, if_neg]
    rintro rfl
    have := (List.mem_filter.1 hs).2
    simp [hv] at this

/-- Replacing an unquoted word by a word. -/
theorem replace_word {src : Bytes} {t : Token} {x w : Bytes} (ht : t ∈ tokens src) (hv : t.t = .value) (hq : t.v.head? ≠ some chQuote)
    (hw : Writes x w) (hone : ∀ t ∈ tokens src, t.t = .value → ∀ x ∈ t.v, ¬ Break x) :
    ∃ src', Edited src [⟨Lsp.onLine t.l t.b t.e, x⟩] src' ∧ lineCount (tokens src') = lineCount (tokens src) ∧
      ∀ k, (words (tokens src') k).map Token.v = (words (tokens src) k).map fun s => if s = t then w else s.v := by
  obtain ⟨src', h1, h2, h3, -⟩ := replace_token ht hv hq hw hone
  exact ⟨src', h1, h2, h3⟩

/-- Replacing an operand of a line. -/
theorem map_replace {src : Bytes} {k : Nat} {c t : Token} {rest : List Token} (h : words (tokens src) k = c :: rest) {i : Nat}
    (hi : rest[i]? = some t) (w : Bytes) :
    (words (tokens src) k).map (fun s => if s = t then w else s.v) = c.v :: (rest.map Token.v).set i w := by
  have hnd := words_nodup src k
  rw [h, List.pairwise_cons] at hnd
  rw [h, List.map_cons, if_neg (hnd.1 t (List.mem_of_getElem? hi))]
  congr 1
  have : ∀ (l : List Token) (i : Nat), (l.Pairwise fun a b => a ≠ b) → l[i]? = some t →
      l.map (fun s => if s = t then w else s.v) = (l.map Token.v).set i w := by
    intro l
    induction l with
    | nil => intro i _ h; simp at h
    | cons a l ih =>
      intro i hp hi
      rw [List.pairwise_cons] at hp
      cases i with
      | zero =>
        simp only [List.getElem?_cons_zero, Option.some.injEq] at hi
        subst hi
        simp only [List.map_cons, List.set_cons_zero, if_pos]
        congr 1
        exact List.map_congr_left fun s hs => if_neg fun he => hp.1 s hs he.symm
      | succ i =>
        simp only [List.getElem?_cons_succ] at hi
        rw [List.map_cons, if_neg (hp.1 t (List.mem_of_getElem? hi)), ih i hp.2 hi]
        rfl
  exact this rest i hnd.2 hi

/-- A text whose lines are read to the same instructions. -/
theorem program_replaced {env : Env} {src src' : Bytes} {r : ProcessResult} (hr : process env src = some r) (hs : NoSurplus r)
    (hlc : lineCount (tokens src') = lineCount (tokens src))
    (hsets : ∀ k v, SetsVersion ((words (tokens src') k).map Token.v) v ↔ SetsVersion ((words (tokens src) k).map Token.v) v)
    (hops : ∀ k ver o, r.listing[k]? = some o → VersionAt (tokens src) k ver →
      opsOf env.addrOk ver ((words (tokens src) k).map Token.v) = [o] → opsOf env.addrOk ver ((words (tokens src') k).map Token.v) = [o]) :
    ∃ r', process env src' = some r' ∧ r'.listing = r.listing ∧ r'.version = r.version := by
  obtain ⟨hlen, hver, huniq, hl⟩ := listing_ops hr hs
  obtain ⟨r', h1, h2, -, h4, -⟩ := program_of_lines env src' r.listing (by rw [hlc, hlen]) (by
    intro k ver o ho hv
    have hv' := version_sets hsets hv
    exact hops k ver o ho hv' (hl k ver o ho hv'))
  exact ⟨r', h1, h2, huniq _ _ (Nat.le_of_eq hlen) (version_sets hsets h4) _ hver⟩

/-- A line that begins with the same word, which is not a pragma, sets no version. -/
theorem sets_head {w : Bytes} (hw : w ≠ b!"#pragma") (ws ws' : List Bytes) (v : Nat) : SetsVersion (w :: ws) v ↔ SetsVersion (w :: ws') v := by
  constructor <;>
  · rintro ⟨s, rest, he, -⟩
    injection he with he
    exact absurd he hw

theorem head_of {α : Type} {l : List α} {x : α} (h : l[0]? = some x) : ∃ l', l = x :: l' := by
  cases l with
  | nil => cases h
  | cons a l => exact ⟨l, by rw [show a = x from by simpa using h]⟩

theorem second_of {α : Type} {l : List α} {x : α} (h : l[0 + 1]? = some x) : ∃ z l', l = z :: x :: l' := by
  cases l with
  | nil => cases h
  | cons a l =>
    obtain ⟨l', rfl⟩ := head_of (l := l) (by simpa using h)
    exact ⟨a, l', rfl⟩

theorem word_some {α : Type} {r : Nat → Bytes → Option α} {ver : Nat} {w : Bytes} {ws ws' : List Bytes} {m : α}
    (h : Reader.word r ver (w :: ws) = some (m, ws')) : (∀ l, Reader.word r ver (w :: l) = some (m, l)) ∧ ws' = ws := by
  obtain ⟨a, h1, h2⟩ := Option.map_eq_some_iff.1 (show (r ver w).map _ = some (m, ws') from h)
  injection h2 with h2 h3
  subst h2 h3
  exact ⟨fun l => by show (r ver w).map _ = _; rw [h1]; rfl, rfl⟩

/-- Another spelling of a field. -/
theorem eval_set {addrOk : Bytes → Bool} {sh : Shape} {i : Nat} {rd : FieldReader} {b : Bool} (hargs : sh.args[i]? = some ⟨.field rd, b⟩)
    {ver : Nat} {ws rest : List Bytes} {x y : Bytes} {o : Op} (hws : ws[i]? = some x) (hev : evalShape addrOk sh ver ws = some (o, rest))
    (hxy : ∀ m, (P.readFieldWith rd ver x).map (·.field) = some m → (P.readFieldWith rd ver y).map (·.field) = some m) :
    evalShape addrOk sh ver (ws.set i y) = some (o, rest) := by
  have word : ∀ (r : FieldReader) (w : Bytes) (ws : List Bytes),
      Reader.word (fun v s => (P.readFieldWith r v s).map (·.field)) ver (w :: ws) = ((P.readFieldWith r ver w).map (·.field)).map fun a => (a, ws) :=
    fun _ _ _ => rfl
  have key : ∀ ws m ws', Reader.word (fun v s => (P.readFieldWith rd v s).map (·.field)) ver (x :: ws) = some (m, ws') →
      Reader.word (fun v s => (P.readFieldWith rd v s).map (·.field)) ver (y :: ws) = some (m, ws') := by
    intro ws m ws' h
    rw [word] at h ⊢
    obtain ⟨a, h1, h2⟩ := Option.map_eq_some_iff.1 h
    rw [hxy a h1, Option.map_some, h2]
  cases sh <;> simp only [Shape.args] at hargs <;>
    first
    | (exfalso; revert hargs; rcases i with _ | _ | _ | i <;> simp; done)
    | skip
  all_goals
    rcases i with _ | _ | _ | i <;> simp at hargs
    obtain ⟨rfl, rfl⟩ := hargs
  all_goals
    first
    | obtain ⟨ws, rfl⟩ := head_of hws
      clear hws hxy
      simp only [evalShape, bind_some] at hev
      obtain ⟨m, ws', h1, h2⟩ := hev
      simp only [List.set_cons_zero, evalShape, bind_some]
      exact ⟨m, ws', key ws m ws' h1, h2⟩
    | obtain ⟨z, ws, rfl⟩ := second_of hws
      clear hws hxy
      simp only [evalShape, bind_some] at hev
      obtain ⟨m, ws', h1, m2, ws2, h2, h3⟩ := hev
      simp only [List.set_cons_succ, List.set_cons_zero, evalShape, bind_some]
      obtain ⟨hz, rfl⟩ := word_some h1
      exact ⟨m, y :: ws, hz _, m2, ws2, key ws m2 ws2 h2, h3⟩

theorem names_plain : (∀ x ∈ fieldOps, ∀ d ∈ x.2.1, PlainWord d.name) ∧ ∀ d ∈ txnFields, PlainWord d.name := by
  have h : ∀ w : Bytes, (w ≠ [] ∧ w.head? ≠ some chQuote ∧ w.take 2 ≠ [chSlash, chSlash] ∧ ∀ x ∈ w, 48 ≤ x ∧ x ≠ 59) → PlainWord w := by
    rintro w ⟨h1, h2, h3, h4⟩
    have hs : ∀ x : UInt8, 48 ≤ x ∧ x ≠ 59 → ¬ Stop x := by apply forall_byte; decide +kernel
    exact ⟨h1, h2, h3, fun x hx => hs x (h4 x hx)⟩
  refine ⟨fun x hx d hd => h _ ?_, fun d hd => h _ ?_⟩
  · revert d; revert x; decide +kernel
  · revert d; decide +kernel

theorem names_head : (∀ g : FieldGroup, ∀ d ∈ documented g, ∃ c s, d.name = c :: s ∧ 64 < c) ∧ ∀ d ∈ txnFields, ∃ c s, d.name = c :: s ∧ 64 < c := by
  have h : ∀ w : Bytes, (match w with | [] => false | c :: _ => decide (64 < c)) = true → ∃ c s, w = c :: s ∧ 64 < c := by
    intro w hw
    cases w with
    | nil => cases hw
    | cons c s => exact ⟨c, s, rfl, by simpa using hw⟩
  refine ⟨fun g d hd => h _ ?_, fun d hd => h _ ?_⟩
  · revert d; cases g <;> decide +kernel
  · revert d; decide +kernel

theorem fieldName_plain {w : Bytes} {i n : Nat} {name : Bytes} (h : FieldName w i n name) : PlainWord name := by
  cases h with
  | field w names k n d h hd => exact names_plain.1 _ h d (List.mem_of_getElem? hd)
  | txn w n d h hd => exact names_plain.2 d (List.mem_of_getElem? hd)
  | inner n d hd => exact names_plain.2 d (List.mem_of_getElem? hd)
  | array w n d h hd => exact names_plain.2 d (List.mem_of_getElem? hd)
  | group w n d h hd => exact names_plain.2 d (List.mem_of_getElem? hd)
  | groupArray w n d h hd => exact names_plain.2 d (List.mem_of_getElem? hd)

theorem digit_small {base : Nat} {s : Bytes} {ds : List Nat} (h : PlainDigits base s ds) (hb : base ≤ 10) : ∀ x ∈ s, x < 58 := by
  have key : ∀ x : UInt8, (∀ n, digitValue x = some n → n < 10 → x < 58) := by
    have : ∀ x : UInt8, (match digitValue x with | some n => decide (n < 10) | none => false) = true → x < 58 := by
      apply forall_byte; decide +kernel
    intro x n h1 h2
    exact this x (by rw [h1]; simpa using h2)
  intro x hx
  have : digitValue x ∈ s.map digitValue := List.mem_map.2 ⟨x, hx, rfl⟩
  rw [h.1] at this
  obtain ⟨n, hn, he⟩ := List.mem_map.1 this
  exact key x n he.symm (by have := h.2 n hn; omega)

theorem signed_head {s : Bytes} {i : Int} (h : SignedDecimal s i) : ∃ c t, s = c :: t ∧ c < 58 := by
  obtain ⟨digits, ds, h0, h1, h2⟩ := h
  obtain ⟨c, t, rfl⟩ := List.exists_cons_of_ne_nil h0
  have := digit_small h1 (Nat.le_refl _) c (by simp)
  rcases h2 with ⟨rfl, -⟩ | ⟨rfl, -⟩ | ⟨rfl, -⟩
  · exact ⟨c, t, rfl, this⟩
  · exact ⟨43, _, rfl, by decide⟩
  · exact ⟨45, _, rfl, by decide⟩

theorem number_reads {rd : FieldReader} {ver n m : Nat} {s : Bytes} (h : SignedDecimal s n)
    (hr : (P.readFieldWith rd ver s).map (·.field) = some m) : m = n := by
  obtain ⟨c, t, hs, hc⟩ := signed_head h
  have hnot : ∀ w : Bytes, (∃ c s, w = c :: s ∧ 64 < c) → w ≠ s := by
    rintro w ⟨c', s', rfl, h1⟩ he
    rw [hs] at he
    injection he with he
    subst he
    have : ∀ x : UInt8, x < 58 → ¬ 64 < x := by apply forall_byte; decide +kernel
    exact this _ hc h1
  have hbyte : IsByte s m := by
    cases rd with
    | group g =>
      rcases (field_iff g ver s m).1 hr with ⟨d, h1, h2, -⟩ | ⟨-, h⟩
      · exact absurd h2 (hnot _ (names_head.1 g d (List.mem_of_getElem? h1)))
      · exact h
    | txn c =>
      have := C16_txn_by_number c ver s (fun d hd => hnot _ (names_head.2 d hd))
      rw [show P.readFieldWith (.txn c) ver s = readTxnField c ver s from rfl, this] at hr
      rcases (field_iff .txn ver s m).1 hr with ⟨d, h1, h2, -⟩ | ⟨-, h⟩
      · exact absurd h2 (hnot _ (names_head.1 .txn d (List.mem_of_getElem? h1)))
      · exact h
  obtain ⟨-, ds', k1, k2, -⟩ := hbyte
  obtain ⟨digits, ds, h0, h1, h2⟩ := h
  rcases h2 with ⟨rfl, h2⟩ | ⟨rfl, -⟩ | ⟨rfl, -⟩
  · rw [plainDigits_unique h1 k1] at h2
    omega
  · exact absurd rfl (plainDigits_no_sign k1).1
  · exact absurd rfl (plainDigits_no_sign k1).2

theorem name_reads {w : Bytes} {i n ver : Nat} {name : Bytes} (h : FieldName w i n name) (hk : KnownAt ver w name) :
    ∃ e rd, opsGet w = some e ∧ e.shape.args[i]? = some ⟨.field rd, false⟩ ∧ (P.readFieldWith rd ver name).map (·.field) = some n := by
  have key : ∀ (rd : FieldReader) (w : Bytes) (i : Nat), ((opsGet w).bind fun e => e.shape.args[i]?) = some ⟨.field rd, false⟩ →
      (P.readFieldWith rd ver name).map (·.field) = some n →
      ∃ e rd, opsGet w = some e ∧ e.shape.args[i]? = some ⟨.field rd, false⟩ ∧ (P.readFieldWith rd ver name).map (·.field) = some n := by
    intro rd w i h1 h2
    obtain ⟨e, h3, h4⟩ := Option.bind_eq_some_iff.1 h1
    exact ⟨e, rd, h3, h4, h2⟩
  have karr : ∀ d, txnFields[n]? = some d → d.array = true → (P.readFieldWith (.txn .txna) ver d.name).map (·.field) = some n := by
    intro d hd ha
    show (readTxnField .txna ver d.name).map _ = _
    rw [C15_txna_partial ver n d hd, ha]; rfl
  have ktxn : ∀ d, txnFields[n]? = some d → d.since ≤ ver → (P.readFieldWith (.txn .txn) ver d.name).map (·.field) = some n :=
    fun d hd hs => (txnField_iff ver _ n).2 (.inl ⟨d, hd, rfl, hs⟩)
  cases h with
  | field w names k n d h hd =>
    obtain ⟨g, h1, h2⟩ := fieldOps_args _ h
    obtain ⟨e, h3, h4⟩ := Option.map_eq_some_iff.1 h1
    refine key (.group g) w 0 (by rw [h3, Option.bind_some, h4]; rfl) ?_
    simp only at h2
    rw [← h2] at hd
    exact (field_iff g ver _ n).2 (.inl ⟨d, hd, rfl, hk.field names k h d (by rw [← h2]; exact List.mem_of_getElem? hd) rfl⟩)
  | txn w n d h hd =>
    refine key (.txn .txn) w 0 ?_ (ktxn d hd (hk.txn ?_ ?_ d (List.mem_of_getElem? hd) rfl))
    · clear key karr ktxn hk; revert h; revert w; decide +kernel
    · clear key karr ktxn hk; revert h; revert w; decide +kernel
    · clear key karr ktxn hk; revert h; revert w; decide +kernel
  | inner n d hd hi =>
    refine key (.txn .itxn) b!"itxn_field" 0 (by decide +kernel) ?_
    obtain ⟨m, hm⟩ := Option.ne_none_iff_exists'.1 hi
    exact (innerField_iff ver _ n).2 (.inl ⟨d, hd, rfl, m, hm, hk.inner rfl d (List.mem_of_getElem? hd) rfl m hm⟩)
  | array w n d h hd ha =>
    refine key (.txn .txna) w 0 ?_ (karr d hd ha)
    clear key karr ktxn hk; revert h; revert w; decide +kernel
  | group w n d h hd =>
    refine key (.txn .txn) w 1 ?_ (ktxn d hd (hk.txn ?_ ?_ d (List.mem_of_getElem? hd) rfl))
    · clear key karr ktxn hk; revert h; revert w; decide +kernel
    · clear key karr ktxn hk; revert h; revert w; decide +kernel
    · clear key karr ktxn hk; revert h; revert w; decide +kernel
  | groupArray w n d h hd ha =>
    refine key (.txn .txna) w 1 ?_ (karr d hd ha)
    clear key karr ktxn hk; revert h; revert w; decide +kernel

theorem opcode_plain : ∀ e ∈ opsList, e.name.getLast? ≠ some chColon ∧ e.name ≠ b!"#pragma" := by decide +kernel

/-- The name of a field instead of its number. -/
theorem ops_named {addrOk : Bytes → Bool} {ver : Nat} {w : Bytes} {ws : List Bytes} {o : Op} {i n : Nat} {x name : Bytes}
    (h : opsOf addrOk ver (w :: ws) = [o]) (ho : o ≠ .empty) (hf : FieldName w i n name) (hx : ws[i]? = some x)
    (hn : SignedDecimal x n) (hk : KnownAt ver w name) : opsOf addrOk ver (w :: ws.set i name) = [o] := by
  obtain ⟨e, rd, he, ha, hr⟩ := name_reads hf hk
  obtain ⟨hm, rfl⟩ := opsGet_mem he
  obtain ⟨p1, p2⟩ := opcode_plain e hm
  rw [opsOf, if_neg p1, if_neg p2, he] at h
  rw [opsOf, if_neg p1, if_neg p2, he]
  dsimp only at h ⊢
  match hev : evalShape addrOk e.shape ver ws with
  | none => rw [hev] at h; exact absurd (by simpa [readOps] using h.symm) ho
  | some (o', []) =>
    rw [eval_set ha hx hev fun m hm => by rw [number_reads hn hm]; exact hr]
    rw [hev] at h
    exact h
  | some (o', _ :: _) => rw [hev] at h; simp [readOps] at h

/-! ## Byte constants -/

theorem writes_quoted {bs : Bytes} (h : ∀ x ∈ bs, x ≠ 92) : Writes (quoted bs) (34 :: (bs ++ [34])) := by
  have h1 : Unescaped (bs.flatMap fun c => if c = 34 then [92, 34] else [c]) bs := by
    induction bs with
    | nil => exact .nil
    | cons c bs ih =>
      rw [List.flatMap_cons]
      by_cases hc : c = 34
      · subst hc
        exact .esc _ _ (ih fun x hx => h x (by simp [hx]))
      · rw [if_neg hc]
        exact .keep c _ _ (fun h' => h c (by simp) h'.1) (ih fun x hx => h x (by simp [hx]))
  have h2 : ∀ p, NoQuote p (bs.flatMap fun c => if c = 34 then [92, 34] else [c]) := by
    clear h1 h
    induction bs with
    | nil => exact fun p => .nil p
    | cons c bs ih =>
      intro p
      rw [List.flatMap_cons]
      by_cases hc : c = 34
      · subst hc
        exact .cons _ _ _ (fun h => by cases h) (.cons _ _ _ (fun _ => rfl) (ih _))
      · rw [if_neg hc]
        exact .cons _ _ _ (fun h => absurd h hc) (ih _)
  have h3 : lastByte (bs.flatMap fun c => if c = 34 then [92, 34] else [c]) ≠ chBackslash := by
    rcases List.eq_nil_or_concat bs with rfl | ⟨l, c, rfl⟩
    · decide
    · rw [List.concat_eq_append, List.flatMap_append]
      unfold lastByte
      by_cases hc : c = 34
      · subst hc
        rw [List.getLast?_append]
        simp [chBackslash]
      · rw [List.getLast?_append]
        have := h c (by simp)
        simp [hc, chBackslash, this]
  exact .quoted _ _ h1 (h2 _) h3

theorem denotes_self {bs : Bytes} (h : ∀ x ∈ bs, x ≠ 92) : Denotes bs bs := by
  induction bs with
  | nil => exact .nil
  | cons c bs ih => exact .plain c _ _ (h c (by simp)) (ih fun x hx => h x (by simp [hx]))

/-- A word that is a constant on its own. -/
theorem bytesAt_alone {w : Bytes} (h : w ∉ [b!"base32", b!"b32", b!"base64", b!"b64"]) : ∃ g : Option Bytes, ∀ ws, bytesAt w ws = g.map fun a => (a, ws) := by
  simp only [List.mem_cons, List.not_mem_nil, or_false, not_or] at h
  unfold bytesAt
  split
  · exact ⟨_, fun ws => rfl⟩
  · split
    · exact ⟨_, fun ws => rfl⟩
    · split
      · exact ⟨_, fun ws => rfl⟩
      · simp only [show ¬ (w = b!"base32" ∨ w = b!"b32") by simp [h.1, h.2.1], if_false]
        simp only [show ¬ (w = b!"base64" ∨ w = b!"b64") by simp [h.2.2.1, h.2.2.2], if_false]
        split
        · cases parseStringLiteral w with
          | ok v => exact ⟨some v, fun ws => rfl⟩
          | err => exact ⟨none, fun ws => rfl⟩
          | crash => exact ⟨none, fun ws => rfl⟩
        · exact ⟨none, fun ws => rfl⟩

/-- A word that says how the next one is decoded. -/
theorem bytesAt_pair {w : Bytes} (h : w ∈ [b!"base32", b!"b32", b!"base64", b!"b64"]) : ∃ g : Bytes → Option Bytes, ∀ ws, bytesAt w ws =
    match ws with
    | [] => none
    | x :: ws => (g x).map fun a => (a, ws) := by
  simp only [List.mem_cons, List.not_mem_nil, or_false] at h
  rcases h with h | h | h | h
  · exact ⟨_, bytesAt_b32' w (by simp [h])⟩
  · exact ⟨_, bytesAt_b32' w (by simp [h])⟩
  · exact ⟨_, bytesAt_b64' w (by simp [h])⟩
  · exact ⟨_, bytesAt_b64' w (by simp [h])⟩

theorem many_set {x y : Bytes} (hxy : ∀ ws, bytesAt y ws = bytesAt x ws) (hx : x ∉ [b!"base32", b!"b32", b!"base64", b!"b64"])
    (fuel : Nat) : ∀ (ws : List Bytes) (i : Nat), ws[i]? = some x →
      (∀ (j : Nat) p, i = j + 1 → ws[j]? = some p → p ∉ [b!"base32", b!"b32", b!"base64", b!"b64"]) →
      Reader.many bytesAt fuel (ws.set i y) = Reader.many bytesAt fuel ws := by
  induction fuel with
  | zero =>
    intro ws i hi _
    cases ws with
    | nil => cases hi
    | cons w ws => cases i <;> rfl
  | succ fuel ih =>
    intro ws i hi hprev
    cases ws with
    | nil => cases hi
    | cons w ws =>
      cases i with
      | zero =>
        simp only [List.getElem?_cons_zero, Option.some.injEq] at hi
        subst hi
        rw [List.set_cons_zero, Reader.many, Reader.many, hxy]
      | succ i =>
        rw [List.getElem?_cons_succ] at hi
        rw [List.set_cons_succ, Reader.many, Reader.many]
        by_cases hw : w ∈ [b!"base32", b!"b32", b!"base64", b!"b64"]
        · cases i with
          | zero => exact absurd hw (hprev 0 w rfl rfl)
          | succ i =>
            obtain ⟨g, hg⟩ := bytesAt_pair hw
            cases ws with
            | nil => cases hi
            | cons z ws =>
              rw [List.set_cons_succ, hg, hg]
              dsimp only
              cases g z with
              | none => rfl
              | some a =>
                simp only [Option.map_some]
                rw [ih ws i (by simpa using hi) fun j p hj hp => hprev (j + 2) p (by omega) (by simpa using hp)]
        · obtain ⟨g, hg⟩ := bytesAt_alone hw
          rw [hg, hg]
          cases g with
          | none => rfl
          | some a =>
            simp only [Option.map_some]
            rw [ih ws i hi fun j p hj hp => hprev (j + 1) p (by omega) (by simpa using hp)]

theorem bytes_set {x y : Bytes} (hxy : ∀ ws, bytesAt y ws = bytesAt x ws) {ver : Nat} {ws : List Bytes} {v : Bytes} {i : Nat}
    (hi : ws[i]? = some x) (hprev : ∀ (j : Nat) p, i = j + 1 → ws[j]? = some p → p ∉ [b!"base32", b!"b32", b!"base64", b!"b64"])
    (h : Reader.bytes ver ws = some (v, [])) : Reader.bytes ver (ws.set i y) = some (v, []) := by
  cases ws with
  | nil => cases hi
  | cons w ws =>
    cases i with
    | zero =>
      simp only [List.getElem?_cons_zero, Option.some.injEq] at hi
      subst hi
      show bytesAt y ws = _
      rw [hxy]; exact h
    | succ i =>
      exfalso
      have h : bytesAt w ws = some (v, []) := h
      rw [List.getElem?_cons_succ] at hi
      by_cases hw : w ∈ [b!"base32", b!"b32", b!"base64", b!"b64"]
      · cases i with
        | zero => exact hprev 0 w rfl rfl hw
        | succ i =>
          obtain ⟨g, hg⟩ := bytesAt_pair hw
          rw [hg] at h
          match ws, h, hi with
          | z :: [], _, hi => simp at hi
          | z :: a :: ws, h, _ =>
            dsimp only at h
            obtain ⟨b, -, h2⟩ := Option.map_eq_some_iff.1 h
            simp at h2
      · obtain ⟨g, hg⟩ := bytesAt_alone hw
        rw [hg] at h
        obtain ⟨b, -, h2⟩ := Option.map_eq_some_iff.1 h
        injection h2 with h2 h3
        subst h3
        cases hi

theorem byteShapes : ∀ w ∈ byteConstOps, (opsGet w).map (·.shape) = some .byte ∨ (opsGet w).map (·.shape) = some .pushbytes ∨
    (opsGet w).map (·.shape) = some .bytecblock ∨ (opsGet w).map (·.shape) = some .pushbytess := by decide +kernel

/-- Another spelling of a byte constant. -/
theorem ops_bytes {addrOk : Bytes → Bool} {ver : Nat} {w : Bytes} {ws : List Bytes} {o : Op} {i : Nat} {x y : Bytes}
    (h : opsOf addrOk ver (w :: ws) = [o]) (ho : o ≠ .empty) (hw : w ∈ byteConstOps) (hi : ws[i]? = some x)
    (hxy : ∀ ws, bytesAt y ws = bytesAt x ws) (hx : x ∉ [b!"base32", b!"b32", b!"base64", b!"b64"])
    (hprev : ∀ p, (w :: ws)[i]? = some p → p ∉ [b!"base32", b!"b32", b!"base64", b!"b64"]) :
    opsOf addrOk ver (w :: ws.set i y) = [o] := by
  have hpre : ∀ (j : Nat) p, i = j + 1 → ws[j]? = some p → p ∉ [b!"base32", b!"b32", b!"base64", b!"b64"] := by
    rintro j p rfl hp
    exact hprev p (by rw [List.getElem?_cons_succ]; exact hp)
  obtain ⟨sh, hshape, hcase⟩ : ∃ sh, (opsGet w).map (·.shape) = some sh ∧ (sh = .byte ∨ sh = .pushbytes ∨ sh = .bytecblock ∨ sh = .pushbytess) := by
    rcases byteShapes w hw with h | h | h | h <;> exact ⟨_, h, by simp⟩
  obtain ⟨e, he, hsh⟩ := shape_of hshape
  obtain ⟨hm, rfl⟩ := opsGet_mem he
  obtain ⟨p1, p2⟩ := opcode_plain e hm
  rw [opsOf, if_neg p1, if_neg p2, he] at h
  rw [opsOf, if_neg p1, if_neg p2, he]
  dsimp only at h ⊢
  rw [hsh] at h ⊢
  have hev : evalShape addrOk sh ver ws = some (o, []) := by
    match hev : evalShape addrOk sh ver ws with
    | none => rw [hev] at h; exact absurd (by simpa [readOps] using h.symm) ho
    | some (o', []) => rw [hev] at h; simp only [readOps, List.cons.injEq, and_true] at h; rw [h]
    | some (o', _ :: _) => rw [hev] at h; simp [readOps] at h
  suffices evalShape addrOk sh ver (ws.set i y) = some (o, []) by rw [this]; rfl
  have hall : ∀ vs ws', Reader.all bytesAt ver ws = some (vs, ws') → Reader.all bytesAt ver (ws.set i y) = some (vs, ws') := by
    intro vs ws' h
    unfold Reader.all at h ⊢
    rw [List.length_set, many_set hxy hx _ ws i hi hpre]
    exact h
  rcases hcase with rfl | rfl | rfl | rfl
  · simp only [evalShape, bind_some, ret_some] at hev ⊢
    obtain ⟨v, ws', h1, h2, rfl⟩ := hev
    exact ⟨v, [], bytes_set hxy hi hpre h1, h2, rfl⟩
  · simp only [evalShape, bind_some, ret_some] at hev ⊢
    obtain ⟨v, ws', h1, h2, rfl⟩ := hev
    exact ⟨v, [], bytes_set hxy hi hpre h1, h2, rfl⟩
  · simp only [evalShape, bind_some, ret_some] at hev ⊢
    obtain ⟨v, ws', h1, h2⟩ := hev
    exact ⟨v, ws', hall _ _ h1, h2⟩
  · simp only [evalShape, bind_some, ret_some] at hev ⊢
    obtain ⟨v, ws', h1, h2⟩ := hev
    exact ⟨v, ws', hall _ _ h1, h2⟩

end Teal.Lsp
