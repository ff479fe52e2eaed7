import Verif.Spec.Docs
import Verif.Props.Hover
import Verif.Props.WireOut

/-!
# C129: the texts of the documentation
-/

namespace Teal.Docs
open Teal Teal.Spec Teal.JsonSpec Teal.WireSpec Teal.DocsSpec Teal.Wire Teal.Lsp Teal.Lsp.Spec Teal.Props

theorem get_mem {m : GoMap Bytes} {k v : Bytes} (h : m.get k = some v) : (k, v) ∈ m := by
  obtain ⟨⟨k', v'⟩, h1, h2⟩ := Option.map_eq_some_iff.1 h
  have h3 := List.find?_some h1
  have h4 := List.mem_of_find?_eq_some h1
  simp only [beq_iff_eq] at h3
  subst h3
  subst h2
  exact h4

theorem get_none {m : GoMap Bytes} {k : Bytes} (h : m.get k = none) : ∀ v, (k, v) ∉ m := by
  intro v hv
  have := List.find?_eq_none.1 (Option.map_eq_none_iff.1 h) _ hv
  simp at this

theorem mem_groups (g : FieldGroup) : g ∈ groups := by cases g <;> decide

theorem group_unique {g : FieldGroup} {n : Nat} (h : n < g.specs.length) : groupOf (g.str n) n = some g := by
  have : ∀ g ∈ groups, ∀ n ∈ List.range g.specs.length, groupOf (g.str n) n = some g := by decide +kernel
  exact this g (mem_groups g) n (List.mem_range.2 h)

theorem groupOf_some {name : Bytes} {n : Nat} {g : FieldGroup} (h : groupOf name n = some g) : n < g.specs.length ∧ g.str n = name := by
  have := List.find?_some h
  simpa using this

theorem docs_some : ∀ p ∈ opDocByName, p.2 ≠ [] := by decide +kernel
theorem extras_some : ∀ p ∈ opDocExtras, p.2 ≠ [] := by decide +kernel
theorem ops_docs : ∀ e ∈ opsList, e.name ∉ undescribed → (opDocByName.get e.name).isSome = true := by decide +kernel
theorem ops_nodocs : ∀ e ∈ opsList, e.name ∈ undescribed → opDocByName.get e.name = none ∧ opDocExtras.get e.name = none := by decide +kernel

/-- The help for an opcode. -/
theorem fullDoc_help {w : Bytes} (hw : ∃ d ∈ docOps, d.name = w) (hu : w ∉ undescribed) : Help w (fullDoc w) ∧ fullDoc w ≠ [] := by
  obtain ⟨e, he⟩ := Option.isSome_iff_exists.1 ((known_op w).2 hw)
  obtain ⟨hm, rfl⟩ := opsGet_mem he
  obtain ⟨d, hd⟩ := Option.isSome_iff_exists.1 (ops_docs e hm hu)
  have hne := docs_some _ (get_mem hd)
  unfold fullDoc Wire.opText
  rw [he]
  simp only [entry, hd, Option.getD_some]
  cases hx : opDocExtras.get e.name with
  | none => exact ⟨.plain (get_mem hd) (get_none hx), hne⟩
  | some x =>
    have hxne := extras_some _ (get_mem hx)
    simp only [Option.getD_some]
    rw [if_neg hxne, if_neg hne]
    exact ⟨.more (get_mem hd) (get_mem hx), by simp⟩

theorem fullDoc_nothing {w : Bytes} (h : ¬ ((∃ d ∈ docOps, d.name = w) ∧ w ∉ undescribed)) : fullDoc w = [] := by
  unfold fullDoc Wire.opText
  cases he : opsGet w with
  | none => rfl
  | some e =>
    obtain ⟨hm, rfl⟩ := opsGet_mem he
    have hu : e.name ∈ undescribed := Classical.byContradiction fun hu => h ⟨(known_op _).1 (by rw [he]; rfl), hu⟩
    obtain ⟨h1, h2⟩ := ops_nodocs e hm hu
    simp [entry, h1, h2]

theorem flagged_some : ∀ g ∈ groups, ∀ p ∈ groupDocs g, p.1 = true → p.2 ≠ [] ∧ (g = .txn ∨ g = .global) := by decide +kernel
theorem groupDocs_length : ∀ g ∈ groups, groupDocs g = [] ∨ (groupDocs g).length = g.specs.length := by decide +kernel

/-- The remark on a field. -/
theorem note_remark {g : FieldGroup} {n : Nat} (h : n < g.specs.length) : Remark g n (note g n) := by
  rcases groupDocs_length g (mem_groups g) with h1 | h1
  · have : note g n = [] := by unfold note; rw [h1]; rfl
    rw [this]
    exact .none h1
  · have hn : n < (groupDocs g).length := by omega
    unfold note
    rw [List.getElem?_eq_getElem hn]
    cases hp : (groupDocs g)[n] with
    | mk f d =>
      have hget : (groupDocs g)[n]? = some (f, d) := by rw [List.getElem?_eq_getElem hn, hp]
      cases f with
      | false => exact .plain hget
      | true =>
        obtain ⟨hd, hg⟩ := flagged_some g (mem_groups g) _ (List.mem_of_getElem? hget) rfl
        dsimp only
        unfold addExtra
        rw [if_neg hd]
        have hflag : flagNote g = b!"Application mode only" ++ if g = .global then b!"." else [] := by
          rcases hg with rfl | rfl <;> rfl
        rw [if_neg (by rw [hflag]; simp), hflag]
        by_cases hl : d.getLast? = some 46
        · rw [if_pos hl]
          obtain ⟨p, hp⟩ := List.getLast?_eq_some_iff.1 hl
          have := Remark.sentence hget ⟨p, hp⟩
          simpa [List.append_assoc] using this
        · rw [if_neg hl]
          have := Remark.part hget hd (fun p hp => hl (by rw [hp]; simp))
          simpa [List.append_assoc] using this

theorem documented_lt {g : FieldGroup} {n : Nat} {d : DocField} (h : (documented g)[n]? = some d) : n < g.specs.length ∧ g.str n = d.name := by
  obtain ⟨s, h1, h2, -⟩ := documented_spec g n d h
  exact ⟨(List.getElem?_eq_some_iff.1 h1).1, h2⟩

theorem ascii_docs : ∀ p ∈ opDocByName, Utf8 p.2 := by
  have : ∀ p ∈ opDocByName, ∀ c ∈ p.2, c < 128 := by decide +kernel
  exact fun p hp => ascii_utf8 (this p hp)

theorem ascii_extras : ∀ p ∈ opDocExtras, Utf8 p.2 := by
  have : ∀ p ∈ opDocExtras, ∀ c ∈ p.2, c < 128 := by decide +kernel
  exact fun p hp => ascii_utf8 (this p hp)

theorem ascii_notes {g : FieldGroup} {n : Nat} (h : n < g.specs.length) : Utf8 (g.str n) ∧ Utf8 (note g n) := by
  have : ∀ g ∈ groups, ∀ n ∈ List.range g.specs.length, (∀ c ∈ g.str n, c < 128) ∧ ∀ c ∈ note g n, c < 128 := by decide +kernel
  have := this g (mem_groups g) n (List.mem_range.2 h)
  exact ⟨ascii_utf8 this.1, ascii_utf8 this.2⟩

theorem entry_utf8 {m : GoMap Bytes} (hm : ∀ p ∈ m, Utf8 p.2) (k : Bytes) : Utf8 (entry m k) := by
  unfold entry
  cases h : m.get k with
  | none => exact .nil
  | some v => exact hm _ (get_mem h)

theorem fullDoc_utf8 (w : Bytes) : Utf8 (fullDoc w) := by
  unfold fullDoc Wire.opText
  split
  · dsimp only
    split
    · exact entry_utf8 ascii_docs w
    · split
      · exact entry_utf8 ascii_extras w
      · exact utf8_append (utf8_append (entry_utf8 ascii_docs w) (ascii_utf8 (by decide))) (entry_utf8 ascii_extras w)
  · exact .nil

/-- The texts of the server are UTF-8 if those about operands are. -/
theorem clean_texts {operand : LspDiag → Bytes} (h : ∀ d, Utf8 (operand d)) : CleanTexts (texts operand) := by
  refine ⟨?_, h, fullDoc_utf8, ?_, ?_⟩
  · intro d
    show Utf8 (hover d)
    cases d with
    | op name => exact fullDoc_utf8 name
    | field name n =>
      simp only [hover]
      split
      · rename_i g hg
        obtain ⟨h1, h2⟩ := groupOf_some hg
        obtain ⟨h3, h4⟩ := ascii_notes h1
        exact utf8_append (utf8_append (utf8_append (utf8_append h3 (ascii_utf8 (by decide)))
          (ascii_utf8 (decimal_number (formatUint_decimal _)).2)) (ascii_utf8 (by decide))) h4
      · exact .nil
  · intro o
    show Utf8 (opDoc o)
    unfold opDoc Wire.opText
    split
    · exact entry_utf8 ascii_docs o
    · exact .nil
  · intro v
    show Utf8 (argDoc v)
    unfold argDoc
    split
    · split
      · rename_i g hg
        exact (ascii_notes (groupOf_some hg).1).2
      · exact .nil
    · exact .nil

end Teal.Docs

namespace Teal.Props
open Teal Teal.Spec Teal.JsonSpec Teal.WireSpec Teal.DocsSpec Teal.Wire Teal.Docs Teal.Lsp Teal.Lsp.Spec

/-- **C129** Over an opcode, its help is shown; over a field, its name, its number and the remark on it.  `o` stands for the
messages about operands. -/
theorem C129_hover (h : Host) (ms : List (Choice × Msg)) (u src : Bytes) (k : Nat) (c : Int) (a : Result)
    (ha : Answered h ms u src (.hover ⟨k, c⟩) a) (o : LspDiag → Bytes) :
    (∀ w rest, Begins (tokens src) k w rest → (w.b : Int) ≤ c → c ≤ w.e → (∃ d ∈ docOps, d.name = w.v) → w.v ∉ undescribed →
      ∃ text, Help w.v text ∧ text ≠ [] ∧ HoverSays text (Wire.resultOut (texts o) a)) ∧
    (∀ w rest i t n name, Begins (tokens src) k w rest → ¬ ((w.b : Int) ≤ c ∧ c ≤ w.e) → Pointed rest c i → rest[i]? = some t →
      w.v ∉ ecOps → TableName w.v i n name → t.v = name ∨ SignedDecimal t.v n →
      ∀ g d, (documented g)[n]? = some d → d.name = name →
        ∃ s r, DecimalOf n s ∧ Remark g n r ∧ HoverSays (name ++ b!" = " ++ s ++ b!"\r\n" ++ r) (Wire.resultOut (texts o) a)) := by
  obtain ⟨h1, h2, -⟩ := C86_exact h ms u src k c a ha
  have hsays : ∀ x, HoverSays (hover x) (Wire.resultOut (texts o) (.hover x)) := fun x =>
    ⟨_, rfl, has_find (by decide) rfl ⟨_, rfl, has_find (by decide) rfl rfl, has_find (by decide) rfl rfl⟩⟩
  refine ⟨?_, ?_⟩
  · intro w rest hw hb he hd hu
    rw [(h1 w rest hw hb he).1 ⟨hd, hu⟩]
    obtain ⟨h3, h4⟩ := fullDoc_help hd hu
    exact ⟨_, h3, h4, hsays (.op w.v)⟩
  · intro w rest i t n name hw hc hi ht hec htab hval g d hg hn
    rw [((h2 w rest i t hw hc hi ht).1 n name).2 ⟨hec, htab, hval⟩]
    obtain ⟨h3, h4⟩ := documented_lt hg
    refine ⟨formatUint n, note g n, formatUint_decimal n, note_remark h3, ?_⟩
    have := hsays (.field name n)
    simp only [hover] at this
    rw [← hn, ← h4, group_unique h3] at this
    rw [← hn, ← h4]
    exact this

/-- **C129** The signature of an opcode comes with the help for it, if there is any. -/
theorem C129_signature (op : Bytes) (active : Int) (o : LspDiag → Bytes) :
    ∃ s, (∃ ms, Wire.resultOut (texts o) (.signature op active) = .obj ms ∧ Has ms b!"signatures" (· = .arr [.obj s])) ∧
      (((∃ d ∈ docOps, d.name = op) ∧ op ∉ undescribed) → ∃ text, Help op text ∧ Has s b!"documentation" (Says b!"markdown" text)) ∧
      (¬ ((∃ d ∈ docOps, d.name = op) ∧ op ∉ undescribed) → Lacks s b!"documentation") := by
  refine ⟨_, ⟨_, rfl, has_find (by decide) rfl rfl⟩, ?_, ?_⟩
  · rintro ⟨h1, h2⟩
    obtain ⟨h3, h4⟩ := fullDoc_help h1 h2
    refine ⟨_, h3, ?_⟩
    rw [if_neg (show ¬ (texts o).fullDoc op = [] from h4)]
    split <;> exact has_find (by decide) rfl ⟨_, rfl, has_find (by decide) rfl rfl, has_find (by decide) rfl rfl⟩
  · intro h
    rw [if_pos (show (texts o).fullDoc op = [] from fullDoc_nothing h)]
    split <;> exact lacks_of (by decide) rfl

/-- **C129** An opcode that is offered comes with its description; a field with the remark on it; constants with no text. -/
theorem C129_completion (o : LspDiag → Bytes) :
    (∀ w, (∃ d ∈ docOps, d.name = w) → ∃ ms, Wire.completionOut (texts o) (.op w) = .obj ms ∧
      (w ∉ undescribed → ∃ d, (w, d) ∈ opDocByName ∧ d ≠ [] ∧ Has ms b!"documentation" (Says b!"markdown" d)) ∧
      (w ∈ undescribed → Has ms b!"documentation" (Says b!"markdown" []))) ∧
    (∀ v n, v.value = some n → ∃ ms, Wire.completionOut (texts o) (.arg v) = .obj ms ∧
      (∀ g d, (documented g)[n]? = some d → d.name = v.name → ∃ r, Remark g n r ∧ Has ms b!"documentation" (Says b!"markdown" r)) ∧
      ((∀ g d, (documented g)[n]? = some d → d.name ≠ v.name) → Has ms b!"documentation" (Says b!"markdown" []))) := by
  have hsays : ∀ s, Says b!"markdown" s (markup b!"markdown" s) := fun s => ⟨_, rfl, has_find (by decide) rfl rfl, has_find (by decide) rfl rfl⟩
  refine ⟨?_, ?_⟩
  · intro w hw
    obtain ⟨e, he⟩ := Option.isSome_iff_exists.1 ((known_op w).2 hw)
    obtain ⟨hm, rfl⟩ := opsGet_mem he
    have hdoc : opDoc e.name = entry opDocByName e.name := by unfold opDoc Wire.opText; rw [he]
    have hhas : ∃ ms, Wire.completionOut (texts o) (.op e.name) = .obj ms ∧ Has ms b!"documentation" (Says b!"markdown" (opDoc e.name)) := by
      refine ⟨_, rfl, ?_⟩
      unfold nonempty
      split <;> exact has_find (by decide) rfl (hsays _)
    obtain ⟨ms, h1, h2⟩ := hhas
    rw [hdoc] at h2
    refine ⟨ms, h1, ?_, ?_⟩
    · intro hu
      obtain ⟨d, hd⟩ := Option.isSome_iff_exists.1 (ops_docs e hm hu)
      rw [entry, hd] at h2
      exact ⟨d, get_mem hd, docs_some _ (get_mem hd), h2⟩
    · intro hu
      rw [entry, (ops_nodocs e hm hu).1] at h2
      exact h2
  · intro v n hv
    have hhas : ∃ ms, Wire.completionOut (texts o) (.arg v) = .obj ms ∧ Has ms b!"documentation" (Says b!"markdown" (argDoc v)) := by
      refine ⟨_, rfl, ?_⟩
      rw [hv]
      exact has_find (by decide) rfl (hsays _)
    obtain ⟨ms, h1, h2⟩ := hhas
    unfold argDoc at h2
    rw [hv] at h2
    dsimp only at h2
    refine ⟨ms, h1, ?_, ?_⟩
    · intro g d hg hd
      obtain ⟨h3, h4⟩ := documented_lt hg
      rw [← hd, ← h4, group_unique h3] at h2
      exact ⟨_, note_remark h3, h2⟩
    · intro hno
      cases hgo : groupOf v.name n with
      | none => rw [hgo] at h2; exact h2
      | some g =>
        obtain ⟨h3, h4⟩ := groupOf_some hgo
        exfalso
        have hlen : (documented g).length = g.specs.length := by
          have := congrArg List.length (documented_specs g)
          simpa using this
        have hg : (documented g)[n]? = some ((documented g)[n]'(by omega)) := List.getElem?_eq_getElem _
        exact hno g _ hg (by rw [← (documented_lt hg).2, h4])

/-- The constants that are offered for numbers are not fields. -/
theorem C129_constants : ∀ p ∈ GoMap.entries (txnTypeMap typeNameDescriptions) ++ GoMap.entries onCompletionMap, ∀ g : FieldGroup, ∀ d, (documented g)[p.2]? = some d → d.name ≠ p.1 := by
  have h : ∀ p ∈ GoMap.entries (txnTypeMap typeNameDescriptions) ++ GoMap.entries onCompletionMap, groupOf p.1 p.2 = none := by decide +kernel
  intro p hp g d hg hn
  obtain ⟨h1, h2⟩ := documented_lt hg
  have := group_unique h1
  rw [h2, hn, h p hp] at this
  cases this

/-- **C129** Nothing but the messages about operands can keep the texts of the server from being UTF-8. -/
theorem C129_utf8 (o : LspDiag → Bytes) : CleanTexts (texts o) ↔ ∀ d, Utf8 (o d) :=
  ⟨fun h => h.operand, clean_texts⟩

/-- The help for `err`, which has no remarks, and for `bz`, which has; a field for applications only, whose remark is no
sentence, and one whose remark is. -/
example : Docs.fullDoc b!"err" = b!"Fail immediately." ∧
    Docs.fullDoc b!"bz" = b!"branch to TARGET if value A is zero\nSee `bnz` for details on how branches work. `bz` inverts the behavior of `bnz`." ∧
    Docs.hover (.field b!"Fee" 1) = b!"Fee = 1\r\nmicroalgos" ∧
    Docs.hover (.field b!"Round" 6) = b!"Round = 6\r\nCurrent round number. Application mode only." ∧
    Docs.hover (.field b!"CallerApplicationID" 13) =
      b!"CallerApplicationID = 13\r\nThe application ID of the application that called this application. 0 if this application is at the top-level. Application mode only." := by
  decide +kernel

end Teal.Props
