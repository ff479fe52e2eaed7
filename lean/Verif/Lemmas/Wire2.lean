import Verif.Lemmas.Wire

/-!
# Lemmas: the messages of the protocol are read
-/

namespace Teal.WireSpec

open Teal Teal.Spec Teal.JsonSpec Teal.Wire

theorem isObj_ne_null {P : List (Bytes × Json) → Prop} {j : Json} (h : IsObj P j) : j ≠ .null := by
  obtain ⟨ms, rfl, -⟩ := h
  exact fun h => by cases h

theorem ptr_reads {α : Type} {zero : α} {d : Dec α} {j : Json} {a : α} (hj : j ≠ .null) (h : ∀ old, d old j = some a) (old : Option α) :
    ptr zero d old j = some (some a) := by
  cases j with
  | null => exact (hj rfl).elim
  | _ => simp only [ptr, h, Option.map_some]

theorem ptr_zero {α : Type} {zero : α} {d : Dec α} {j : Json} {a : α} (hj : j ≠ .null) (h : d zero j = some a) :
    ptr zero d none j = some (some a) := by
  cases j with
  | null => exact (hj rfl).elim
  | _ => simp only [ptr, Option.getD_none, h, Option.map_some]

theorem ptr_null {α : Type} (zero : α) (d : Dec α) (old : Option α) : ptr zero d old .null = some none := by
  cases old <;> rfl

theorem string_null (old : Bytes) : string old .null = some old := by cases old <;> rfl

theorem slice_reads {α : Type} {zero : α} {d : Dec α} {P : Json → Prop} (h : ∀ v, P v → ∃ a, d zero v = some a) {j : Json} (hj : Arr P j) :
    ∃ as, slice zero d [] j = some as := by
  obtain ⟨vs, rfl, hv⟩ := hj
  show ∃ as, elems zero d [] vs = some as
  induction vs with
  | nil => exact ⟨[], rfl⟩
  | cons v vs ih =>
    obtain ⟨a, ha⟩ := h v (hv v (by simp))
    obtain ⟨as, has⟩ := ih (fun x hx => hv x (by simp [hx]))
    exact ⟨a :: as, by simp only [elems, List.headD_nil, List.tail_nil, ha, has]⟩

theorem pos_reads {p : Lsp.Pos} {j : Json} (h : IsPos p j) (old : Lsp.Pos) : position old j = some p := by
  obtain ⟨ms, rfl, h1, h2⟩ := h
  obtain ⟨v1, e1, o1, p1⟩ := has_pick h1 (f := b!"line") (by decide) rfl
  obtain ⟨v2, e2, o2, p2⟩ := has_pick h2 (f := b!"character") (by decide) rfl
  show members _ _ _ = _
  rw [members_eq position_table ms _ (by unfold positionFields; all_once; exact ⟨o1, o2⟩)]
  simp only [positionFields, List.foldlM_cons, List.foldlM_nil, fill, e1, e2, int_reads p1, int_reads p2]
  rfl

theorem range_reads {r : Lsp.Rg} {j : Json} (h : IsRange r j) (old : Lsp.Rg) : range old j = some r := by
  obtain ⟨ms, rfl, h1, h2⟩ := h
  obtain ⟨v1, e1, o1, p1⟩ := has_pick h1 (f := b!"start") (by decide) rfl
  obtain ⟨v2, e2, o2, p2⟩ := has_pick h2 (f := b!"end") (by decide) rfl
  show members _ _ _ = _
  rw [members_eq range_table ms _ (by unfold rangeFields; all_once; exact ⟨o1, o2⟩)]
  simp only [rangeFields, List.foldlM_cons, List.foldlM_nil, fill, e1, e2, pos_reads p1, pos_reads p2]
  rfl

theorem doc_reads {u : Bytes} {j : Json} (h : IsDoc u j) (old : Bytes) : document old j = some u := by
  obtain ⟨ms, rfl, h1⟩ := h
  obtain ⟨v1, e1, o1, p1⟩ := has_pick h1 (f := b!"uri") (by decide) rfl
  show members _ _ _ = _
  rw [members_eq document_table ms _ (by unfold documentFields; all_once; exact o1)]
  simp only [documentFields, List.foldlM_cons, List.foldlM_nil, fill, e1, string_reads p1]
  rfl

theorem item_reads {u t : Bytes} {j : Json} (h : IsItem u t j) (old : Opened) : ∃ i, opened old j = some ⟨u, i, t⟩ := by
  obtain ⟨ms, rfl, h1, h2, h3⟩ := h
  obtain ⟨v1, e1, o1, p1⟩ := has_pick h1 (f := b!"uri") (by decide) rfl
  obtain ⟨v2, e2, o2, p2⟩ := has_pick h2 (f := b!"version") (by decide) rfl
  obtain ⟨v3, e3, o3, p3⟩ := has_pick h3 (f := b!"text") (by decide) rfl
  obtain ⟨i, p2⟩ := p2
  refine ⟨i, ?_⟩
  show members _ _ _ = _
  rw [members_eq opened_table ms _ (by unfold openedFields; all_once; exact ⟨o1, o2, o3⟩)]
  simp only [openedFields, List.foldlM_cons, List.foldlM_nil, fill, e1, e2, e3, string_reads p1, int_reads p2, string_reads p3]
  rfl

theorem versioned_reads {u : Bytes} {j : Json} (h : IsVersioned u j) (old : Bytes × Int) : ∃ i, changed old j = some (u, i) := by
  obtain ⟨ms, rfl, h1, h2⟩ := h
  obtain ⟨v1, e1, o1, p1⟩ := has_pick h1 (f := b!"uri") (by decide) rfl
  obtain ⟨v2, e2, o2, p2⟩ := has_pick h2 (f := b!"version") (by decide) rfl
  obtain ⟨i, p2⟩ := p2
  refine ⟨i, ?_⟩
  show members _ _ _ = _
  rw [members_eq changed_table ms _ (by unfold changedFields; all_once; exact ⟨o1, o2⟩)]
  simp only [changedFields, List.foldlM_cons, List.foldlM_nil, fill, e1, e2, string_reads p1, int_reads p2]
  rfl

theorem change_reads {t : Bytes} {j : Json} (h : IsChange t j) (old : Bytes) : change old j = some t := by
  obtain ⟨ms, rfl, h1⟩ := h
  obtain ⟨v1, e1, o1, p1⟩ := has_pick h1 (f := b!"text") (by decide) rfl
  show members _ _ _ = _
  rw [members_eq change_table ms _ (by unfold changeFields; all_once; exact o1)]
  simp only [changeFields, List.foldlM_cons, List.foldlM_nil, fill, e1, string_reads p1]
  rfl

theorem docPos_reads {u : Bytes} {p : Lsp.Pos} {j : Json} (h : IsDocPos u p j) (old : Bytes × Lsp.Pos) : documentPos old j = some (u, p) := by
  obtain ⟨ms, rfl, h1, h2⟩ := h
  obtain ⟨v1, e1, o1, p1⟩ := has_pick h1 (f := b!"textDocument") (by decide) rfl
  obtain ⟨v2, e2, o2, p2⟩ := has_pick h2 (f := b!"position") (by decide) rfl
  show members _ _ _ = _
  rw [members_eq documentPos_table ms _ (by unfold documentPosFields; all_once; exact ⟨o1, o2⟩)]
  simp only [documentPosFields, List.foldlM_cons, List.foldlM_nil, fill, e1, e2, doc_reads p1, pos_reads p2]
  rfl

theorem prepareRename_reads {u : Bytes} {p : Lsp.Pos} {j : Json} (h : IsDocPos u p j) (old : Bytes × Lsp.Pos) : prepareRename old j = some (u, p) := by
  obtain ⟨ms, rfl, h1, h2⟩ := h
  obtain ⟨v1, e1, o1, p1⟩ := has_pick h1 (f := b!"textDocument") (by decide) rfl
  obtain ⟨v2, e2, o2, p2⟩ := has_pick h2 (f := b!"Position") (by decide) rfl
  show members _ _ _ = _
  rw [members_eq prepareRename_table ms _ (by unfold prepareRenameFields; all_once; exact ⟨o1, o2⟩)]
  simp only [prepareRenameFields, List.foldlM_cons, List.foldlM_nil, fill, e1, e2, doc_reads p1, pos_reads p2]
  rfl

theorem docRange_reads {u : Bytes} {r : Lsp.Rg} {j : Json} (h : IsDocRange u r j) (old : Bytes × Lsp.Rg) : documentRange old j = some (u, r) := by
  obtain ⟨ms, rfl, h1, h2⟩ := h
  obtain ⟨v1, e1, o1, p1⟩ := has_pick h1 (f := b!"textDocument") (by decide) rfl
  obtain ⟨v2, e2, o2, p2⟩ := has_pick h2 (f := b!"range") (by decide) rfl
  show members _ _ _ = _
  rw [members_eq documentRange_table ms _ (by unfold documentRangeFields; all_once; exact ⟨o1, o2⟩)]
  simp only [documentRangeFields, List.foldlM_cons, List.foldlM_nil, fill, e1, e2, doc_reads p1, range_reads p2]
  rfl

theorem docOnly_reads {u : Bytes} {j : Json} (h : IsDocOnly u j) (old : Bytes) : documentOnly old j = some u := by
  obtain ⟨ms, rfl, h1⟩ := h
  obtain ⟨v1, e1, o1, p1⟩ := has_pick h1 (f := b!"textDocument") (by decide) rfl
  show members _ _ _ = _
  rw [members_eq documentOnly_table ms _ (by unfold documentOnlyFields; all_once; exact o1)]
  simp only [documentOnlyFields, List.foldlM_cons, List.foldlM_nil, fill, e1, doc_reads p1]
  rfl

theorem docPtr_reads {u : Bytes} {j : Json} (h : IsDocOnly u j) (old : Option Bytes) : documentPtr old j = some (some u) := by
  obtain ⟨ms, rfl, h1⟩ := h
  obtain ⟨v1, e1, o1, p1⟩ := has_pick h1 (f := b!"textDocument") (by decide) rfl
  show members _ _ _ = _
  rw [members_eq documentPtr_table ms _ (by unfold documentPtrFields; all_once; exact o1)]
  simp only [documentPtrFields, List.foldlM_cons, List.foldlM_nil, fill, e1, ptr_reads (isObj_ne_null p1) (doc_reads p1)]
  rfl

theorem rename_reads {u n : Bytes} {p : Lsp.Pos} {j : Json} (h : IsObj (fun ms => Has ms b!"textDocument" (IsDoc u) ∧ Has ms b!"position" (IsPos p) ∧ Has ms b!"newName" (IsStr n)) j) (old : Rename) : rename old j = some ⟨u, p, n⟩ := by
  obtain ⟨ms, rfl, h1, h2, h3⟩ := h
  obtain ⟨v1, e1, o1, p1⟩ := has_pick h1 (f := b!"textDocument") (by decide) rfl
  obtain ⟨v2, e2, o2, p2⟩ := has_pick h2 (f := b!"Position") (by decide) rfl
  obtain ⟨v3, e3, o3, p3⟩ := has_pick h3 (f := b!"newName") (by decide) rfl
  show members _ _ _ = _
  rw [members_eq rename_table ms _ (by unfold renameFields; all_once; exact ⟨o1, o2, o3⟩)]
  simp only [renameFields, List.foldlM_cons, List.foldlM_nil, fill, e1, e2, e3, doc_reads p1, pos_reads p2, string_reads p3]
  rfl

theorem replaceValue_reads {u n : Bytes} {r : Lsp.Rg} {j : Json} (h : IsObj (fun ms => Has ms b!"uri" (IsStr u) ∧ Has ms b!"range" (IsRange r) ∧ Has ms b!"name" (IsStr n)) j) (old : Replace) : replaceValue old j = some ⟨u, r, n⟩ := by
  obtain ⟨ms, rfl, h1, h2, h3⟩ := h
  obtain ⟨v1, e1, o1, p1⟩ := has_pick h1 (f := b!"uri") (by decide) rfl
  obtain ⟨v2, e2, o2, p2⟩ := has_pick h2 (f := b!"range") (by decide) rfl
  obtain ⟨v3, e3, o3, p3⟩ := has_pick h3 (f := b!"name") (by decide) rfl
  show members _ _ _ = _
  rw [members_eq replaceValue_table ms _ (by unfold replaceValueFields; all_once; exact ⟨o1, o2, o3⟩)]
  simp only [replaceValueFields, List.foldlM_cons, List.foldlM_nil, fill, e1, e2, e3, string_reads p1, range_reads p2, string_reads p3]
  rfl

theorem label_reads {u n : Bytes} {j : Json} (h : IsObj (fun ms => Has ms b!"uri" (IsStr u) ∧ Has ms b!"name" (IsStr n)) j) (old : Bytes × Bytes) : label old j = some (u, n) := by
  obtain ⟨ms, rfl, h1, h2⟩ := h
  obtain ⟨v1, e1, o1, p1⟩ := has_pick h1 (f := b!"uri") (by decide) rfl
  obtain ⟨v2, e2, o2, p2⟩ := has_pick h2 (f := b!"name") (by decide) rfl
  show members _ _ _ = _
  rw [members_eq label_table ms _ (by unfold labelFields; all_once; exact ⟨o1, o2⟩)]
  simp only [labelFields, List.foldlM_cons, List.foldlM_nil, fill, e1, e2, string_reads p1, string_reads p2]
  rfl

theorem removeLine_reads {u : Bytes} {l : Int} {j : Json} (h : IsObj (fun ms => Has ms b!"uri" (IsStr u) ∧ Has ms b!"line" (IsInt l)) j) (old : Bytes × Int) : removeLine old j = some (u, l) := by
  obtain ⟨ms, rfl, h1, h2⟩ := h
  obtain ⟨v1, e1, o1, p1⟩ := has_pick h1 (f := b!"uri") (by decide) rfl
  obtain ⟨v2, e2, o2, p2⟩ := has_pick h2 (f := b!"line") (by decide) rfl
  show members _ _ _ = _
  rw [members_eq removeLine_table ms _ (by unfold removeLineFields; all_once; exact ⟨o1, o2⟩)]
  simp only [removeLineFields, List.foldlM_cons, List.foldlM_nil, fill, e1, e2, string_reads p1, int_reads p2]
  rfl

theorem command_reads {n : Bytes} {j : Json} (h : IsObj (fun ms => Has ms b!"command" (IsStr n)) j) (old : Bytes) : command old j = some n := by
  obtain ⟨ms, rfl, h1⟩ := h
  obtain ⟨v1, e1, o1, p1⟩ := has_pick h1 (f := b!"command") (by decide) rfl
  show members _ _ _ = _
  rw [members_eq command_table ms _ (by unfold commandFields; all_once; exact o1)]
  simp only [commandFields, List.foldlM_cons, List.foldlM_nil, fill, e1, string_reads p1]
  rfl

theorem uint64_reads {n : Nat} {s : Bytes} {j : Json} (h : j = .num s) (hd : DecimalOf n s) (hn : n < 2 ^ 64) (old : Nat) : uint64 old j = some n := by
  rw [h]
  exact decimal_parse (Nat.le_refl 64) hd hn

theorem updateVersion_reads {u s : Bytes} {n : Nat} (hd : DecimalOf n s) (hn : n < 2 ^ 64) {j : Json} (h : IsObj (fun ms => Has ms b!"uri" (IsStr u) ∧ Has ms b!"version" (fun j => j = .num s)) j) (old : Bytes × Nat) : updateVersion old j = some (u, n) := by
  obtain ⟨ms, rfl, h1, h2⟩ := h
  obtain ⟨v1, e1, o1, p1⟩ := has_pick h1 (f := b!"uri") (by decide) rfl
  obtain ⟨v2, e2, o2, p2⟩ := has_pick h2 (f := b!"version") (by decide) rfl
  show members _ _ _ = _
  rw [members_eq updateVersion_table ms _ (by unfold updateVersionFields; all_once; exact ⟨o1, o2⟩)]
  simp only [updateVersionFields, List.foldlM_cons, List.foldlM_nil, fill, e1, e2, string_reads p1, uint64_reads p2 hd hn]
  rfl

theorem changes_reads : ∀ {texts : List Bytes} {j : Json}, IsArr (texts.map IsChange) j → slice none (ptr [] change) [] j = some (texts.map some) := by
  intro texts
  induction texts with
  | nil => intro j h; cases h; rfl
  | cons t ts ih =>
    intro j h
    cases h with
    | cons h1 h2 =>
      have := ih h2
      show elems _ _ _ _ = _
      have e : elems none (ptr [] change) [] _ = some (ts.map some) := this
      simp only [elems, List.headD_nil, List.tail_nil, e, ptr_reads (zero := []) (isObj_ne_null h1) (change_reads h1), List.map_cons]

theorem didChange_reads {u : Bytes} {texts : List Bytes} {j : Json}
    (h : IsObj (fun ps => Has ps b!"textDocument" (IsVersioned u) ∧ Has ps b!"contentChanges" (IsArr (texts.map IsChange))) j) :
    ∃ i, didChange (none, []) j = some (some (u, i), texts.map some) := by
  obtain ⟨ms, rfl, h1, h2⟩ := h
  obtain ⟨v1, e1, o1, p1⟩ := has_pick h1 (f := b!"textDocument") (by decide) rfl
  obtain ⟨v2, e2, o2, p2⟩ := has_pick h2 (f := b!"contentChanges") (by decide) rfl
  obtain ⟨i, hi⟩ := versioned_reads p1 ([], 0)
  refine ⟨i, ?_⟩
  show members _ _ _ = _
  rw [members_eq didChange_table ms _ (by unfold didChangeFields; all_once; exact ⟨o1, o2⟩)]
  simp only [didChangeFields, List.foldlM_cons, List.foldlM_nil, fill, e1, e2, ptr_zero (zero := ([], 0)) (isObj_ne_null p1) hi]
  simp [changes_reads p2]

theorem diagnostic_reads {j : Json} (h : Diag j) : ∃ d, diagnostic {} j = some d := by
  obtain ⟨ms, rfl, h1, h2, h3⟩ := h
  obtain ⟨v1, e1, o1, r, p1⟩ := has_pick h1 (f := b!"range") (by decide) rfl
  obtain ⟨o2, p2⟩ := may_pick h2 (f := b!"severity") (by decide) rfl
  obtain ⟨v3, e3, o3, s, p3⟩ := has_pick h3 (f := b!"message") (by decide) rfl
  show ∃ d, members _ _ _ = _
  rw [members_eq diagnostic_table ms _ (by unfold diagnosticFields; all_once; exact ⟨o1, o2, o3⟩)]
  simp only [diagnosticFields, List.foldlM_cons, List.foldlM_nil, fill, e1, e3, range_reads p1]
  rcases p2 with p2 | ⟨v2, e2, rfl | ⟨i, p2⟩⟩
  · simp only [p2]; exact ⟨_, by simp [p3, string]; rfl⟩
  · simp only [e2]; exact ⟨_, by simp [p3, string, ptr]; rfl⟩
  · have hv : v2 ≠ .null := by obtain ⟨s, rfl, -⟩ := p2; exact fun h => by cases h
    simp only [e2]; exact ⟨_, by simp [p3, string, ptr_reads (zero := (0 : Int)) hv (int_reads p2)]; rfl⟩

theorem context_reads {j : Json} (h : Context j) : ∃ d, context {} j = some d := by
  obtain ⟨ms, rfl, h1, h2, h3⟩ := h
  obtain ⟨v1, e1, o1, p1⟩ := has_pick h1 (f := b!"diagnostics") (by decide) rfl
  obtain ⟨o2, p2⟩ := may_pick h2 (f := b!"only") (by decide) rfl
  obtain ⟨o3, p3⟩ := may_pick h3 (f := b!"triggerKind") (by decide) rfl
  obtain ⟨ds, hd⟩ := slice_reads (zero := ({} : ReadDiag)) (d := diagnostic) (fun v => diagnostic_reads) p1
  have h2' : ∃ os : List Bytes, fill ms ({ diagnostics := ds } : ReadContext) (b!"only", fun d j => (slice [] string d.only j).map fun v => { d with only := v }) =
      some { diagnostics := ds, only := os } := by
    unfold fill
    rcases p2 with p2 | ⟨v2, e2, rfl | p2⟩
    · exact ⟨[], by simp only [p2]⟩
    · exact ⟨[], by simp only [e2]; rfl⟩
    · obtain ⟨os, ho⟩ := slice_reads (zero := ([] : Bytes)) (d := string) (P := Str) (by rintro _ ⟨s, rfl⟩; exact ⟨s, rfl⟩) p2
      exact ⟨os, by simp only [e2, ho, Option.map_some]⟩
  obtain ⟨os, ho⟩ := h2'
  have h3' : ∃ tk : Option Int, fill ms ({ diagnostics := ds, only := os } : ReadContext) (b!"triggerKind", fun d j => (ptr 0 int d.triggerKind j).map fun v => { d with triggerKind := v }) =
      some { diagnostics := ds, only := os, triggerKind := tk } := by
    unfold fill
    rcases p3 with p3 | ⟨v3, e3, rfl | ⟨i, p3⟩⟩
    · exact ⟨none, by simp only [p3]⟩
    · exact ⟨none, by simp only [e3]; rfl⟩
    · have hv : v3 ≠ .null := by obtain ⟨s, rfl, -⟩ := p3; exact fun h => by cases h
      exact ⟨some i, by simp only [e3, ptr_reads (zero := (0 : Int)) hv (int_reads p3), Option.map_some]⟩
  obtain ⟨tk, ht⟩ := h3'
  refine ⟨{ diagnostics := ds, only := os, triggerKind := tk }, ?_⟩
  show members _ _ _ = _
  rw [members_eq context_table ms _ (by unfold contextFields; all_once; exact ⟨o1, o2, o3⟩)]
  unfold contextFields
  rw [List.foldlM_cons]
  have : fill ms ({} : ReadContext) (b!"diagnostics", fun d j => (slice {} diagnostic d.diagnostics j).map fun v => { d with diagnostics := v }) =
      some { diagnostics := ds } := by unfold fill; simp only [e1, hd, Option.map_some]
  rw [this]
  show List.foldlM _ _ _ = _
  rw [List.foldlM_cons, ho]
  show List.foldlM _ _ _ = _
  rw [List.foldlM_cons, ht]
  rfl

theorem codeAction_reads {u : Bytes} {r : Lsp.Rg} {j : Json}
    (h : IsObj (fun ms => Has ms b!"textDocument" (IsDoc u) ∧ Has ms b!"range" (IsRange r) ∧ Has ms b!"context" Context) j) :
    ∃ c, codeAction {} j = some ⟨u, r, c⟩ := by
  obtain ⟨ms, rfl, h1, h2, h3⟩ := h
  obtain ⟨v1, e1, o1, p1⟩ := has_pick h1 (f := b!"textDocument") (by decide) rfl
  obtain ⟨v2, e2, o2, p2⟩ := has_pick h2 (f := b!"range") (by decide) rfl
  obtain ⟨v3, e3, o3, p3⟩ := has_pick h3 (f := b!"context") (by decide) rfl
  obtain ⟨c, hc⟩ := context_reads p3
  refine ⟨c, ?_⟩
  show members _ _ _ = _
  rw [members_eq codeAction_table ms _ (by unfold codeActionFields; all_once; exact ⟨o1, o2, o3⟩)]
  simp only [codeActionFields, List.foldlM_cons, List.foldlM_nil, fill, e1, e2, e3, doc_reads p1, range_reads p2]
  simp [hc]

theorem flag_once {ms : List (Bytes × Json)} {k : Bytes} {b : Option Bool} (hk : Ascii k) (h : Flag ms k b) : Once ms k := by
  cases b with
  | none => exact (may_pick h hk rfl).1
  | some b => obtain ⟨_, _, h, _⟩ := has_pick h hk rfl; exact h

theorem flag_fill {ms : List (Bytes × Json)} {k : Bytes} {b : Option Bool} (hk : Ascii k) (h : Flag ms k b) (o : Lsp.Options)
    (get : Lsp.Options → Option Bool) (set : Lsp.Options → Option Bool → Lsp.Options) (h0 : get o = none) (hs : set o none = o) :
    fill ms o (k, fun d j => (ptr false bool (get d) j).map (set d)) = some (set o b) := by
  unfold fill
  cases b with
  | none =>
    rcases (may_pick h hk rfl).2 with h1 | ⟨v, h1, rfl | h2⟩
    · rw [h1]; simp [hs]
    · rw [h1]; simp [ptr_null]
    · exact h2.elim
  | some b =>
    obtain ⟨v, h1, -, rfl⟩ := has_pick h hk rfl
    rw [h1]
    simp only [ptr, show ∀ x, Wire.bool x (Json.bool b) = some b from fun _ => rfl, Option.map_some]

theorem options_reads {o : Lsp.Options} {j : Json} (h : IsOptions o j) : options {} j = some o := by
  obtain ⟨ms, rfl, h1, h2, h3, h4⟩ := h
  show members _ _ _ = _
  rw [members_eq options_table ms _ (by
    unfold optionsFields; all_once
    exact ⟨flag_once (by decide) h1, flag_once (by decide) h2, flag_once (by decide) h3, flag_once (by decide) h4⟩)]
  unfold optionsFields
  rw [List.foldlM_cons, flag_fill (by decide) h1 {} (·.semanticTokens) (fun d v => { d with semanticTokens := v }) rfl rfl]
  show List.foldlM _ _ _ = _
  rw [List.foldlM_cons, flag_fill (by decide) h2 _ (·.inlayNamed) (fun d v => { d with inlayNamed := v }) rfl rfl]
  show List.foldlM _ _ _ = _
  rw [List.foldlM_cons, flag_fill (by decide) h3 _ (·.inlayDecoded) (fun d v => { d with inlayDecoded := v }) rfl rfl]
  show List.foldlM _ _ _ = _
  rw [List.foldlM_cons, flag_fill (by decide) h4 _ (·.lensRefs) (fun d v => { d with lensRefs := v }) rfl rfl]
  rfl

theorem clientInfo_reads {j : Json} (h : IsObj (fun cs => Has cs b!"name" Str ∧ May cs b!"version" Str) j) : ∃ x, clientInfo ([], []) j = some x := by
  obtain ⟨ms, rfl, h1, h2⟩ := h
  obtain ⟨v1, e1, o1, s, rfl⟩ := has_pick h1 (f := b!"name") (by decide) rfl
  obtain ⟨o2, p2⟩ := may_pick h2 (f := b!"version") (by decide) rfl
  show ∃ d, members _ _ _ = _
  rw [members_eq clientInfo_table ms _ (by unfold clientInfoFields; all_once; exact ⟨o1, o2⟩)]
  simp only [clientInfoFields, List.foldlM_cons, List.foldlM_nil, fill, e1]
  rcases p2 with p2 | ⟨v2, e2, rfl | ⟨t, rfl⟩⟩
  · simp only [p2]; exact ⟨_, by simp [string]; rfl⟩
  · simp only [e2]; exact ⟨_, by simp [string]; rfl⟩
  · simp only [e2]; exact ⟨_, by simp [string]; rfl⟩

theorem init_reads {o : Option Lsp.Options} {j : Json} (h : IsInit o j) : ∃ c, init {} j = some ⟨0, c, o⟩ := by
  obtain ⟨ms, rfl, h1, h2, h3⟩ := h
  obtain ⟨e1, o1⟩ := lacks_pick h1 (f := b!"id") (by decide) rfl
  obtain ⟨o2, p2⟩ := may_pick h2 (f := b!"clientInfo") (by decide) rfl
  have o3 : Once ms b!"initializationOptions" := by
    cases o with
    | none => exact (may_pick h3 (by decide) rfl).1
    | some o => obtain ⟨_, _, h, _⟩ := has_pick h3 (f := b!"initializationOptions") (by decide) rfl; exact h
  have hc : ∃ c, fill ms ({} : Init) (b!"clientInfo", fun d j => (ptr ([], []) clientInfo d.clientInfo j).map fun v => { d with clientInfo := v }) =
      some ⟨0, c, none⟩ := by
    unfold fill
    rcases p2 with p2 | ⟨v2, e2, rfl | p2⟩
    · exact ⟨none, by simp only [p2]⟩
    · exact ⟨none, by simp only [e2]; rfl⟩
    · obtain ⟨x, hx⟩ := clientInfo_reads p2
      exact ⟨some x, by simp only [e2, ptr_zero (zero := ([], [])) (isObj_ne_null p2) hx]; rfl⟩
  obtain ⟨c, hc⟩ := hc
  refine ⟨c, ?_⟩
  show members _ _ _ = _
  rw [members_eq init_table ms _ (by unfold initFields; all_once; exact ⟨o1, o2, o3⟩)]
  unfold initFields
  rw [List.foldlM_cons]
  have e0 : fill ms ({} : Init) (b!"id", fun d j => (int d.processId j).map fun v => { d with processId := v }) = some {} := by
    unfold fill; simp only [e1]
  rw [e0]
  show List.foldlM _ _ _ = _
  rw [List.foldlM_cons, hc]
  show List.foldlM _ _ _ = _
  rw [List.foldlM_cons]
  have : fill ms (⟨0, c, none⟩ : Init) (b!"initializationOptions", fun d j => (ptr {} options d.options j).map fun v => { d with options := v }) =
      some ⟨0, c, o⟩ := by
    unfold fill
    cases o with
    | none =>
      rcases (may_pick h3 (f := b!"initializationOptions") (by decide) rfl).2 with h1 | ⟨v, h1, rfl | h2⟩
      · simp only [h1]
      · simp only [h1, ptr_null]; rfl
      · exact h2.elim
    | some o =>
      obtain ⟨v, h1, -, h2⟩ := has_pick h3 (f := b!"initializationOptions") (by decide) rfl
      simp only [h1, ptr_zero (zero := ({} : Lsp.Options)) (isObj_ne_null h2) (options_reads h2)]; rfl
  rw [this]
  rfl

end Teal.WireSpec
