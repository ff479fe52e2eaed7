import Verif.Props.Complete

/-!
# Documentation and signatures

C86: what is shown for the word under the cursor.  C87: which operand the signature points at.
-/

namespace Teal.Lsp
open Teal Teal.Spec Teal.Lsp.Spec Teal.Props

theorem field_numbers (g : FieldGroup) : g.specs.length < 256 := by cases g <;> decide +kernel

/-- The field a word names or numbers. -/
theorem fieldDoc_iff (g : FieldGroup) (s : Bytes) (a : Option Shown) (ha : fieldDoc g s = some a) (n : Nat) (name : Bytes) :
    a = some (.field name n) ↔ g ≠ .ecGroup ∧ (∃ d, (documented g)[n]? = some d ∧ d.name = name) ∧ (s = name ∨ SignedDecimal s n) := by
  have hdoc : ∀ m spec, g.specs[m]? = some spec → ∃ d, (documented g)[m]? = some d ∧ d.name = g.str m ∧ spec.field = m := by
    intro m spec h
    have h1 := congrArg (fun l => l[m]?) (documented_specs g)
    simp only [List.getElem?_map, h, Option.map_some] at h1
    obtain ⟨d, h2, h3⟩ := Option.map_eq_some_iff.1 h1
    have hf := (mem_specs_of_index g m spec h).2
    exact ⟨d, h2, by rw [← hf]; exact congrArg Prod.fst h3, hf⟩
  have hnot : ∀ (d : DocField) (i : Int), d ∈ documented g → ¬ SignedDecimal d.name i := by
    intro d i hd h
    obtain ⟨c, t, h1, h2⟩ := signed_head h
    obtain ⟨c', t', h3, h4⟩ := names_head.1 g d hd
    rw [h1] at h3
    cases h3
    have : ∀ x : UInt8, x < 58 → ¬ 64 < x := by apply forall_byte; decide +kernel
    exact this _ h2 h4
  unfold fieldDoc at ha
  split at ha
  · rename_i hg
    cases ha
    exact ⟨fun h => (by cases h), fun h => absurd hg h.1⟩
  · rename_i hg
    cases hs : g.specByName.get s with
    | some spec =>
      rw [hs] at ha
      cases ha
      have hin : ∃ spec' ∈ g.specs, g.str spec'.field = s := by
        refine Classical.byContradiction fun hno => ?_
        rw [specByName_none g s fun x hx he => hno ⟨x, hx, he⟩] at hs
        cases hs
      obtain ⟨spec', hm, rfl⟩ := hin
      rw [specByName_mem g spec' hm] at hs
      cases hs
      obtain ⟨m, hm'⟩ := List.mem_iff_getElem?.1 hm
      obtain ⟨d, h1, h2, h3⟩ := hdoc m spec hm'
      subst h3
      constructor
      · intro h
        cases h
        exact ⟨hg, ⟨d, h1, h2⟩, .inl rfl⟩
      · rintro ⟨_, ⟨d', h4, rfl⟩, (h5 | h5)⟩
        · obtain ⟨s2, h6, h7, -⟩ := documented_spec g n d' h4
          have h8 := (mem_specs_of_index g n s2 h6)
          have h9 := specByName_mem g s2 h8.1
          rw [h8.2, h7, ← h5] at h9
          have h10 := specByName_mem g spec hm
          rw [h9] at h10
          cases h10
          rw [h5, h8.2]
        · exact absurd h5 (by rw [← h2]; exact hnot d n (List.mem_of_getElem? h1))
    | none =>
      rw [hs] at ha
      dsimp only at ha
      have hne : ∀ d' ∈ documented g, s ≠ d'.name := by
        intro d' hd' he
        obtain ⟨m, hm⟩ := List.mem_iff_getElem?.1 hd'
        obtain ⟨s2, h6, h7, -⟩ := documented_spec g m d' hm
        have h8 := (mem_specs_of_index g m s2 h6)
        have h9 := specByName_mem g s2 h8.1
        rw [h8.2, h7, ← he, hs] at h9
        cases h9
      have hlen : ∀ d, (documented g)[n]? = some d → n < 256 := by
        intro d h
        obtain ⟨s2, h6, -⟩ := documented_spec g n d h
        have := (List.getElem?_eq_some_iff.1 h6).1
        have := field_numbers g
        omega
      cases hat : atoi s with
      | none =>
        rw [hat] at ha
        cases ha
        refine ⟨fun h => (by cases h), ?_⟩
        rintro ⟨_, ⟨d', h4, rfl⟩, (h5 | h5)⟩
        · exact absurd h5 (hne d' (List.mem_of_getElem? h4))
        · have := hlen d' h4
          rw [(atoi_iff s n).2 ⟨h5, by omega, by omega⟩] at hat
          cases hat
      | some v =>
        rw [hat] at ha
        dsimp only at ha
        split at ha
        · cases ha
        · rename_i hv
          have hnum : SignedDecimal s n → n < 256 → v = n := by
            intro h5 hlt
            rw [(atoi_iff s n).2 ⟨h5, by omega, by omega⟩] at hat
            cases hat
            rfl
          cases hsp : g.specs[v.toNat]? with
          | some spec =>
            rw [hsp] at ha
            cases ha
            obtain ⟨d, h1, h2, h3⟩ := hdoc _ spec hsp
            constructor
            · intro h
              cases h
              rw [h3]
              refine ⟨hg, ⟨d, h1, h2⟩, .inr ?_⟩
              rw [Int.toNat_of_nonneg (by omega)]
              exact ((atoi_iff s v).1 hat).1
            · rintro ⟨_, ⟨d', h4, rfl⟩, (h5 | h5)⟩
              · exact absurd h5 (hne d' (List.mem_of_getElem? h4))
              · have := hnum h5 (hlen d' h4)
                subst this
                rw [Int.toNat_natCast] at *
                rw [h1] at h4
                cases h4
                rw [h3, h2]
          | none =>
            rw [hsp] at ha
            cases ha
            refine ⟨fun h => (by cases h), ?_⟩
            rintro ⟨_, ⟨d', h4, rfl⟩, (h5 | h5)⟩
            · exact absurd h5 (hne d' (List.mem_of_getElem? h4))
            · have := hnum h5 (hlen d' h4)
              subst this
              rw [Int.toNat_natCast] at hsp
              obtain ⟨s2, h6, -⟩ := documented_spec g n d' h4
              rw [hsp] at h6
              cases h6

/-- Which opcodes take an elliptic curve group. -/
theorem ec_rows : ∀ e ∈ opsList, ∀ a ∈ e.shape.args, ∀ g : FieldGroup, a.type = .field (.group g) → (g = .ecGroup ↔ e.name ∈ ecOps) := by
  have h : ∀ e ∈ opsList, ∀ a ∈ e.shape.args, (match a.type with | .field (.group g) => decide (g = .ecGroup ↔ e.name ∈ ecOps) | _ => true) = true := by
    decide +kernel
  intro e he a ha g hg
  have := h e he a ha
  rw [hg] at this
  simpa using this

theorem ec_txn : ∀ e ∈ opsList, ∀ a ∈ e.shape.args, ∀ c, a.type = .field (.txn c) → e.name ∉ ecOps := by
  have h : ∀ e ∈ opsList, ∀ a ∈ e.shape.args, (match a.type with | .field (.txn _) => decide (e.name ∉ ecOps) | _ => true) = true := by
    decide +kernel
  intro e he a ha c hc
  have := h e he a ha
  rw [hc] at this
  simpa using this

/-- The lists of operands. -/
theorem list_rows : ∀ e ∈ opsList, ((e.shape.args.getLast?.map (·.array)).getD false = true ↔ e.name ∈ listOps) ∧
    ((e.shape.args.getLast?.map (·.array)).getD false = true → e.shape.args.length = 1) := by decide +kernel

theorem rows_some (f : FieldReader) : ∃ p ∈ f.rows, f.table.str p.1.field ≠ [] := by
  cases f with
  | group g => cases g <;> decide +kernel
  | txn c => cases c <;> decide +kernel

/-- The names of the table of an operand. -/
theorem tableName_iff {w : Bytes} {e : OpEntry} (he : opsGet w = some e) {i n : Nat} {name : Bytes} :
    TableName w i n name ↔ ∃ f a, e.shape.args[i]? = some ⟨.field f, a⟩ ∧ ∃ d, (documented f.table)[n]? = some d ∧ d.name = name := by
  obtain ⟨hm, hw⟩ := opsGet_mem he
  have htab : ∀ f a, e.shape.args[i]? = some ⟨.field f, a⟩ →
      (((∃ names k d, (w, names, k) ∈ fieldOps ∧ names[n]? = some d ∧ d.name = name) ∨
        (w ∉ fieldOps.map (·.1) ∧ ∃ d, txnFields[n]? = some d ∧ d.name = name)) ↔
       ∃ d, (documented f.table)[n]? = some d ∧ d.name = name) := by
    intro f a ha
    have hrow := kindRows e hm i
    unfold kindRow at hrow
    rw [ha] at hrow
    cases f with
    | group g =>
      simp only [Bool.and_eq_true, List.any_eq_true, decide_eq_true_eq, hw] at hrow
      obtain ⟨_, ⟨w', names, k⟩, hx, rfl, rfl⟩ := hrow
      simp only [FieldReader.table]
      constructor
      · rintro (⟨names', k', d, h1, h2, h3⟩ | ⟨h1, _⟩)
        · rw [← fieldOps_unique hx h1] at h2; exact ⟨d, h2, h3⟩
        · exact absurd (List.mem_map.2 ⟨_, hx, rfl⟩) h1
      · rintro ⟨d, h1, h2⟩
        exact .inl ⟨_, k, d, hx, h1, h2⟩
    | txn c =>
      simp only [Bool.and_eq_true, decide_eq_true_eq, hw] at hrow
      simp only [FieldReader.table, documented, List.getElem?_map, Option.map_eq_some_iff]
      constructor
      · rintro (⟨names', k', d, h1, h2, h3⟩ | ⟨_, d, h1, h2⟩)
        · exact absurd (List.mem_map.2 ⟨_, h1, rfl⟩) hrow.1.2
        · exact ⟨_, ⟨d, h1, rfl⟩, h2⟩
      · rintro ⟨_, ⟨d, h1, rfl⟩, h2⟩
        exact .inr ⟨hrow.1.2, d, h1, h2⟩
  constructor
  · rintro ⟨⟨m, nm, h1⟩, h2⟩
    obtain ⟨e', ⟨ty, a⟩, he', ha, hne, hnm⟩ := fieldName_iff.1 h1
    cases he.symm.trans he'
    cases ty with
    | field f => exact ⟨f, a, ha, (htab f a ha).1 h2⟩
    | _ => exact absurd hnm.symm hne
  · rintro ⟨f, a, ha, h⟩
    refine ⟨?_, (htab f a ha).2 h⟩
    obtain ⟨p, hp, hne⟩ := rows_some f
    refine ⟨p.1.field, f.table.str p.1.field, fieldName_iff.2 ⟨e, _, he, ha, hne, ?_⟩⟩
    simp only [argFieldName]
    rw [if_pos (List.any_eq_true.2 ⟨p, hp, by simp⟩)]
    simp

end Teal.Lsp

namespace Teal.Props
open Teal Teal.Spec Teal.Lsp Teal.Lsp.Spec

theorem undescribed_iff (w : Bytes) : w ∈ undocumented ↔ w ∈ undescribed := by
  have h1 : ∀ x ∈ undocumented, x ∈ undescribed := by decide +kernel
  have h2 : ∀ x ∈ undescribed, x ∈ undocumented := by decide +kernel
  exact ⟨h1 w, h2 w⟩

theorem known_op (w : Bytes) : (opsGet w).isSome = true ↔ ∃ d ∈ docOps, d.name = w := by
  constructor
  · intro h
    obtain ⟨e, he⟩ := Option.isSome_iff_exists.1 h
    obtain ⟨h1, h2⟩ := opsGet_mem he
    obtain ⟨d, hd, h3⟩ := docOps_names e h1
    exact ⟨d, hd, by rw [h3, h2]⟩
  · rintro ⟨d, hd, rfl⟩
    exact (docOps_plain d hd).1

/-- **C86** What is shown, exactly; a comment on a line of its own is taken for an opcode. -/
theorem C86_exact (h : Host) (ms : List (Choice × Msg)) (u src : Bytes) (k : Nat) (c : Int) (a : Result)
    (ha : Answered h ms u src (.hover ⟨k, c⟩) a) :
    (∀ w rest, Begins (tokens src) k w rest → (w.b : Int) ≤ c → c ≤ w.e →
      ((∃ d ∈ docOps, d.name = w.v) ∧ w.v ∉ undescribed → a = .hover (.op w.v)) ∧
      (¬ ((∃ d ∈ docOps, d.name = w.v) ∧ w.v ∉ undescribed) → a = .emptyObject)) ∧
    (∀ w rest i t, Begins (tokens src) k w rest → ¬ ((w.b : Int) ≤ c ∧ c ≤ w.e) → Pointed rest c i → rest[i]? = some t →
      (∀ n name, a = .hover (.field name n) ↔
        w.v ∉ ecOps ∧ TableName w.v i n name ∧ (t.v = name ∨ SignedDecimal t.v n)) ∧
      ((¬ ∃ n name, w.v ∉ ecOps ∧ TableName w.v i n name ∧ (t.v = name ∨ SignedDecimal t.v n)) → a = .emptyObject)) ∧
    ((∀ w rest, Begins (tokens src) k w rest → ∀ t ∈ w :: rest, ¬ ((t.b : Int) ≤ c ∧ c ≤ t.e)) → a = .emptyObject) := by
  obtain ⟨ch, mp, r, hr, hans⟩ := answered ha
  obtain ⟨s, hs, rfl⟩ := Option.map_eq_some_iff.1
    (show (docAt r ⟨k, c⟩).map (fun | some d => Result.hover d | none => .emptyObject) = some a from hans)
  refine ⟨?_, ?_, ?_⟩
  · intro w rest hw hb he
    obtain ⟨h1, h2⟩ := lines_begins hr hw
    unfold docAt at hs
    rw [if_neg (by simp only; omega), if_neg (by simp), Int.toNat_natCast, h2] at hs
    dsimp only at hs
    rw [← known_op]
    cases ho : opsGet w.v with
    | none =>
      rw [ho] at hs
      cases hs
      simp
    | some e =>
      rw [ho] at hs
      dsimp only at hs
      rw [if_pos ⟨hb, he⟩] at hs
      cases hs
      simp only [undescribed_iff]
      by_cases hu : w.v ∈ undescribed <;> simp [hu]
  · intro w rest i t hw hc hi ht
    obtain ⟨h1, h2⟩ := lines_begins hr hw
    unfold docAt at hs
    rw [if_neg (by simp only; omega), if_neg (by simp), Int.toNat_natCast, h2] at hs
    dsimp only at hs
    cases ho : opsGet w.v with
    | none =>
      rw [ho] at hs
      cases hs
      have hno : ∀ n name, ¬ TableName w.v i n name := by
        rintro n name ⟨⟨m, nm, h⟩, _⟩
        obtain ⟨e, _, he, _⟩ := fieldName_iff.1 h
        rw [ho] at he; cases he
      exact ⟨fun n name => ⟨fun h => (by cases h), fun h => absurd h.2.1 (hno _ _)⟩, fun _ => rfl⟩
    | some e =>
      rw [ho] at hs
      dsimp only at hs
      obtain ⟨hm, hwn⟩ := opsGet_mem ho
      rw [if_neg hc] at hs
      have himm : immAt (w :: rest) c = some (t, i) := by
        rcases immAt_pointed (w := w) hi with ⟨t', h3, h4⟩ | ⟨h3, h4⟩
        · rw [ht] at h3; cases h3; exact h4
        · rw [h4, List.getElem?_eq_none (Nat.le_refl _)] at ht; cases ht
      rw [himm] at hs
      dsimp only at hs
      have hfield : ∀ f arr, e.shape.args[i]? = some ⟨.field f, arr⟩ → arr = false := by
        intro f arr harg
        have hrow := kindRows e hm i
        unfold kindRow at hrow
        rw [harg] at hrow
        cases f with
        | group g => simp only [Bool.and_eq_true, Bool.not_eq_true'] at hrow; exact hrow.1
        | txn c => simp only [Bool.and_eq_true, Bool.not_eq_true'] at hrow; exact hrow.1.1
      generalize hj : (if e.shape.args ≠ [] ∧ i ≥ e.shape.args.length ∧ (e.shape.args.getLast?.map (·.array)).getD false = true
          then e.shape.args.length - 1 else i) = j at hs
      have hsame : ∀ f arr, e.shape.args[j]? = some ⟨.field f, arr⟩ ↔ e.shape.args[i]? = some ⟨.field f, arr⟩ := by
        intro f arr
        by_cases hcl : e.shape.args ≠ [] ∧ i ≥ e.shape.args.length ∧ (e.shape.args.getLast?.map (·.array)).getD false = true
        · have h5 := ((list_rows e hm).1).1 hcl.2.2
          have h6 : ∀ e ∈ opsList, e.name ∈ listOps → ∀ a ∈ e.shape.args, (match a.type with | .field _ => false | _ => true) = true := by
            decide +kernel
          constructor
          · intro h7
            exact absurd (h6 e hm h5 _ (List.mem_of_getElem? h7)) (by simp)
          · intro h7
            rw [List.getElem?_eq_none hcl.2.1] at h7; cases h7
        · rw [if_neg hcl] at hj
          rw [hj]
      split at hs
      · rename_i f arr harg
        have harg' := (hsame f arr).1 harg
        have hiff := fun n name => fieldDoc_iff f.table t.v s hs n name
        have hec : f.table ≠ .ecGroup ↔ w.v ∉ ecOps := by
          rw [← hwn]
          cases f with
          | group g => rw [Ne, show (FieldReader.group g).table = g from rfl, ec_rows e hm _ (List.mem_of_getElem? harg') g rfl]
          | txn c => exact ⟨fun _ => ec_txn e hm _ (List.mem_of_getElem? harg') c rfl, fun _ => by simp [FieldReader.table]⟩
        have htab : ∀ n name, TableName w.v i n name ↔ ∃ d, (documented f.table)[n]? = some d ∧ d.name = name := by
          intro n name
          rw [tableName_iff ho]
          constructor
          · rintro ⟨f', a', h1, h2⟩
            rw [harg'] at h1; cases h1; exact h2
          · intro h; exact ⟨f, arr, harg', h⟩
        have hfin : ∀ n name, s = some (.field name n) ↔ w.v ∉ ecOps ∧ TableName w.v i n name ∧ (t.v = name ∨ SignedDecimal t.v n) := by
          intro n name
          rw [hiff, hec, htab]
        have hshape : s = none ∨ ∃ n name, s = some (.field name n) := by
          unfold fieldDoc at hs
          split at hs
          · cases hs; exact .inl rfl
          · split at hs
            · cases hs; exact .inr ⟨_, _, rfl⟩
            · split at hs
              · cases hs; exact .inl rfl
              · split at hs
                · cases hs
                · split at hs
                  · cases hs; exact .inr ⟨_, _, rfl⟩
                  · cases hs; exact .inl rfl
        constructor
        · intro n name
          rw [← hfin]
          cases s with
          | none => simp
          | some x => simp
        · intro hno
          rcases hshape with rfl | ⟨n, name, h⟩
          · rfl
          · exact absurd ⟨n, name, (hfin n name).1 h⟩ hno
      · rename_i hnf
        cases hs
        have hno : ∀ n name, ¬ TableName w.v i n name := by
          intro n name h
          obtain ⟨f, arr, h1, _⟩ := (tableName_iff ho).1 h
          exact hnf f arr ((hsame f arr).2 h1)
        exact ⟨fun n name => ⟨fun h => (by cases h), fun h => absurd h.2.1 (hno _ _)⟩, fun _ => rfl⟩
  · intro hno
    unfold docAt at hs
    split at hs
    · cases hs; rfl
    · rw [if_neg (by simp), Int.toNat_natCast] at hs
      split at hs
      · cases hs; rfl
      · rename_i op rest hl
        have hno := hno op rest (begins_lines hr hl)
        split at hs
        · cases hs; rfl
        · rw [if_neg (hno op (by simp))] at hs
          cases himm : immAt (op :: rest) c with
          | none => rw [himm] at hs; cases hs; rfl
          | some p =>
            obtain ⟨t, i⟩ := p
            have := immAt_mem himm
            exact absurd this.2 (hno t this.1)

/-- **C86** (partial: see `C86_false`.)  Over an opcode, its description is shown, if there is one; over
an operand that names or numbers a field, the name and the number of the field; elsewhere on a line
nothing. -/
theorem C86_partial (h : Host) (ms : List (Choice × Msg)) (u src : Bytes) (k : Nat) (c : Int) (a : Result)
    (ha : Answered h ms u src (.hover ⟨k, c⟩) a) :
    (∀ w rest, words (tokens src) k = w :: rest → (w.b : Int) ≤ c → c ≤ w.e →
      ((∃ d ∈ docOps, d.name = w.v) ∧ w.v ∉ undescribed → a = .hover (.op w.v)) ∧
      (¬ ((∃ d ∈ docOps, d.name = w.v) ∧ w.v ∉ undescribed) → a = .emptyObject)) ∧
    (∀ w rest i t, words (tokens src) k = w :: rest → (w.e : Int) < c → Meant rest c i → rest[i]? = some t →
      (∀ n name, a = .hover (.field name n) ↔
        w.v ∉ ecOps ∧ TableName w.v i n name ∧ (t.v = name ∨ SignedDecimal t.v n)) ∧
      ((¬ ∃ n name, w.v ∉ ecOps ∧ TableName w.v i n name ∧ (t.v = name ∨ SignedDecimal t.v n)) → a = .emptyObject)) ∧
    (words (tokens src) k ≠ [] ∨ comments (tokens src) k = [] →
      (∀ t ∈ words (tokens src) k, ¬ ((t.b : Int) ≤ c ∧ c ≤ t.e)) → a = .emptyObject) := by
  obtain ⟨h1, h2, h3⟩ := C86_exact h ms u src k c a ha
  refine ⟨fun w rest hw => h1 w rest (.inl hw), fun w rest i t hw hc hi => h2 w rest i t (.inl hw) (fun h => by omega) (meant_pointed hi), ?_⟩
  intro hcom hno
  refine h3 fun w rest hw => ?_
  rcases hw with hw | ⟨hw, hc⟩
  · rw [← hw]; exact hno
  · rw [hw, hc] at hcom
    simp at hcom

/-- Over an opcode, a field by name, a field by number, a field of arrays only, and a label. -/
example : Answered sampleHost (openSession b!"gtxn 0 Fee\ntxn 1\ntxna Fee 0\nb x") b!"u" b!"gtxn 0 Fee\ntxn 1\ntxna Fee 0\nb x"
      (.hover ⟨0, 4⟩) (.hover (.op b!"gtxn")) ∧
    Answered sampleHost (openSession b!"gtxn 0 Fee\ntxn 1\ntxna Fee 0\nb x") b!"u" b!"gtxn 0 Fee\ntxn 1\ntxna Fee 0\nb x"
      (.hover ⟨0, 8⟩) (.hover (.field b!"Fee" 1)) ∧
    Answered sampleHost (openSession b!"gtxn 0 Fee\ntxn 1\ntxna Fee 0\nb x") b!"u" b!"gtxn 0 Fee\ntxn 1\ntxna Fee 0\nb x"
      (.hover ⟨1, 4⟩) (.hover (.field b!"Fee" 1)) ∧
    Answered sampleHost (openSession b!"gtxn 0 Fee\ntxn 1\ntxna Fee 0\nb x") b!"u" b!"gtxn 0 Fee\ntxn 1\ntxna Fee 0\nb x"
      (.hover ⟨2, 6⟩) (.hover (.field b!"Fee" 1)) ∧
    Answered sampleHost (openSession b!"gtxn 0 Fee\ntxn 1\ntxna Fee 0\nb x") b!"u" b!"gtxn 0 Fee\ntxn 1\ntxna Fee 0\nb x"
      (.hover ⟨3, 2⟩) .emptyObject :=
  ⟨open_answered _ _ _ (by decide +kernel), open_answered _ _ _ (by decide +kernel), open_answered _ _ _ (by decide +kernel),
   open_answered _ _ _ (by decide +kernel), open_answered _ _ _ (by decide +kernel)⟩

/-- **C86** fails: nothing is shown over the opcode `int`, nor over the name of an elliptic curve group;
over a comment that consists of the name of an opcode, the opcode is described. -/
theorem C86_false :
    (Answered sampleHost (openSession b!"int 1") b!"u" b!"int 1" (.hover ⟨0, 1⟩) .emptyObject ∧ ∃ d ∈ docOps, d.name = b!"int") ∧
    (Answered sampleHost (openSession b!"ec_add BN254_G1") b!"u" b!"ec_add BN254_G1" (.hover ⟨0, 9⟩) .emptyObject ∧
      FieldName b!"ec_add" 0 0 b!"BN254_G1") ∧
    (Answered sampleHost (openSession b!"//err") b!"u" b!"//err" (.hover ⟨0, 3⟩) (.hover (.op b!"err")) ∧
      words (tokens b!"//err") 0 = []) :=
  ⟨⟨open_answered _ _ _ (by decide +kernel), by decide +kernel⟩,
   ⟨open_answered _ _ _ (by decide +kernel), .field _ ecGroupFields .ecAdd 0 ⟨b!"BN254_G1", 9⟩ (by decide +kernel) (by decide +kernel)⟩,
   open_answered _ _ _ (by decide +kernel), by decide +kernel⟩

/-- **C87** Which signature is shown and which operand it points at, exactly: with the cursor on no operand,
the one behind the last. -/
theorem C87_exact (h : Host) (ms : List (Choice × Msg)) (u src : Bytes) (p : Pos) (a : Result)
    (ha : Answered h ms u src (.signatureHelp p) a) :
    (∀ (k : Nat) w rest i, p.line = k → words (tokens src) k = w :: rest → (∃ d ∈ docOps, d.name = w.v) → Pointed rest p.character i →
      a = .signature w.v (if w.v ∈ listOps ∧ 0 < i then 0 else i)) ∧
    ((∀ (k : Nat) w rest, p.line = k → words (tokens src) k = w :: rest → ∀ d ∈ docOps, d.name ≠ w.v) → a = .emptyObject) := by
  obtain ⟨ch, mp, r, hr, hans⟩ := answered ha
  have hops : ∀ t, t ∈ r.ops ↔ (words (tokens src) t.l).head? = some t ∧ (opsGet t.v).isSome = true := by
    intro t
    obtain ⟨os, hrun, hasm⟩ := process_run hr
    obtain ⟨lds, -, -, -, -, -, -, -, -, ho, -⟩ := assemble_eq hasm
    rw [ho, List.mem_filterMap]
    constructor
    · rintro ⟨o, ho1, ho2⟩
      obtain ⟨s', line, hline, hf⟩ := hrun.mem o ho1
      rw [hf.opTok, Option.map_eq_some_iff] at ho2
      obtain ⟨⟨t', e⟩, hi, rfl⟩ := ho2
      obtain ⟨k, hk⟩ := List.mem_iff_getElem?.1 hline
      obtain ⟨_, rfl⟩ := (linesOf_get src k line).1 hk
      obtain ⟨h1, h2⟩ := instrOf_words.1 hi
      have h3 := (mem_words.1 (List.mem_of_mem_head? h1)).2.1
      dsimp only
      rw [h3]
      exact ⟨h1, by rw [h2]; rfl⟩
    · rintro ⟨h1, h2⟩
      obtain ⟨e, he⟩ := Option.isSome_iff_exists.1 h2
      have hi := instrOf_words.2 ⟨h1, he⟩
      have hm := (mem_words.1 (List.mem_of_mem_head? h1)).1
      have hk : (linesOf src)[t.l]? = some (lineTokens (tokens src) t.l) :=
        (linesOf_get src t.l _).2 ⟨line_lt_count src t hm, rfl⟩
      obtain ⟨o, ho1, hf⟩ := hrun.get t.l _ hk
      exact ⟨o, List.mem_of_getElem? ho1, by rw [hf.2.opTok, hi]; rfl⟩
  simp only [answer] at hans
  constructor
  · intro k w rest i hpl hw hd hi
    have hk := (known_op w.v).2 hd
    have hwm := mem_words.1 (by rw [hw]; simp : w ∈ words (tokens src) k)
    have hin : w ∈ r.ops := (hops w).2 ⟨by rw [hwm.2.1, hw]; rfl, hk⟩
    cases hf : r.ops.find? (fun t => decide ((t.l : Int) = p.line)) with
    | none =>
      have := List.find?_eq_none.1 hf w hin
      simp only [decide_eq_true_eq] at this
      omega
    | some t =>
      have h1 := (hops t).1 (List.mem_of_find?_eq_some hf)
      have h2 := List.find?_some hf
      simp only [decide_eq_true_eq] at h2
      have h3 : t.l = k := by omega
      rw [h3, hw] at h1
      have h4 : w = t := Option.some.inj h1.1
      subst h4
      rw [hf] at hans
      dsimp only at hans
      rw [if_pos hk, hpl, argAt_pointed hr (.inl hw) hi] at hans
      obtain ⟨e, he⟩ := Option.isSome_iff_exists.1 hk
      rw [he] at hans
      dsimp only at hans
      obtain ⟨hm, hwn⟩ := opsGet_mem he
      obtain ⟨h5, h6⟩ := list_rows e hm
      cases hans
      dsimp only
      congr 1
      rw [← hwn]
      by_cases hl : (e.shape.args.getLast?.map (·.array)).getD false = true
      · have h7 := h6 hl
        have h8 : e.shape.args ≠ [] := by intro h; rw [h] at h7; cases h7
        by_cases hpos : 0 < i
        · rw [if_pos ⟨h8, by omega, hl⟩, if_pos ⟨h5.1 hl, hpos⟩, h7]; rfl
        · rw [if_neg (by rintro ⟨_, h, _⟩; omega), if_neg (by rintro ⟨_, h⟩; omega)]
      · rw [if_neg (by rintro ⟨_, _, h⟩; exact hl h), if_neg (by rintro ⟨h, _⟩; exact hl (h5.2 h))]
  · intro hno
    cases hf : r.ops.find? (fun t => decide ((t.l : Int) = p.line)) with
    | none => rw [hf] at hans; exact (Option.some.inj hans).symm
    | some t =>
      have h1 := (hops t).1 (List.mem_of_find?_eq_some hf)
      have h2 := List.find?_some hf
      simp only [decide_eq_true_eq] at h2
      obtain ⟨rest, hrest⟩ : ∃ rest, words (tokens src) t.l = t :: rest := by
        cases hw : words (tokens src) t.l with
        | nil => rw [hw] at h1; cases h1.1
        | cons x xs => rw [hw] at h1; cases h1.1; exact ⟨xs, rfl⟩
      obtain ⟨d, hd, hdn⟩ := (known_op t.v).1 h1.2
      exact absurd hdn (hno t.l t rest h2.symm hrest d hd)

/-- **C87** (partial: for a cursor on an operand or behind all of them; see `C87_false`.)  On the line of
an opcode its signature is shown, and the operand pointed at is the one under the cursor, or the one
that comes next; the operands of a list are the first.  On other lines nothing is shown. -/
theorem C87_partial (h : Host) (ms : List (Choice × Msg)) (u src : Bytes) (p : Pos) (a : Result)
    (ha : Answered h ms u src (.signatureHelp p) a) :
    (∀ (k : Nat) w rest i, p.line = k → words (tokens src) k = w :: rest → (∃ d ∈ docOps, d.name = w.v) → Meant rest p.character i →
      a = .signature w.v (if w.v ∈ listOps ∧ 0 < i then 0 else i)) ∧
    ((∀ (k : Nat) w rest, p.line = k → words (tokens src) k = w :: rest → ∀ d ∈ docOps, d.name ≠ w.v) → a = .emptyObject) := by
  obtain ⟨h1, h2⟩ := C87_exact h ms u src p a ha
  exact ⟨fun k w rest i hp hw hd hi => h1 k w rest i hp hw hd (meant_pointed hi), h2⟩

/-- On the second operand, behind the first, in a list, and on a line without an opcode. -/
example : Answered sampleHost (openSession b!"gtxn 0 Fee\ntxn\nswitch a b\nx:") b!"u" b!"gtxn 0 Fee\ntxn\nswitch a b\nx:"
      (.signatureHelp ⟨0, 8⟩) (.signature b!"gtxn" 1) ∧
    Answered sampleHost (openSession b!"gtxn 0 Fee\ntxn\nswitch a b\nx:") b!"u" b!"gtxn 0 Fee\ntxn\nswitch a b\nx:"
      (.signatureHelp ⟨1, 4⟩) (.signature b!"txn" 0) ∧
    Answered sampleHost (openSession b!"gtxn 0 Fee\ntxn\nswitch a b\nx:") b!"u" b!"gtxn 0 Fee\ntxn\nswitch a b\nx:"
      (.signatureHelp ⟨2, 9⟩) (.signature b!"switch" 0) ∧
    Answered sampleHost (openSession b!"gtxn 0 Fee\ntxn\nswitch a b\nx:") b!"u" b!"gtxn 0 Fee\ntxn\nswitch a b\nx:"
      (.signatureHelp ⟨3, 0⟩) .emptyObject ∧
    ∃ w rest, words (tokens b!"gtxn 0 Fee\ntxn\nswitch a b\nx:") 0 = w :: rest ∧ Meant rest 8 1 := by
  refine ⟨open_answered _ _ _ (by decide +kernel), open_answered _ _ _ (by decide +kernel), open_answered _ _ _ (by decide +kernel),
    open_answered _ _ _ (by decide +kernel), _, _, rfl, .on 1 ⟨b!"Fee", 0, 7, 10, .value⟩ (by decide +kernel) (by decide) (by decide) ?_⟩
  intro j p hj hp
  obtain rfl : j = 0 := by omega
  revert p
  decide +kernel

/-- **C87** fails with the cursor in front of an operand but not on it: the operand pointed at is the one
behind the last. -/
theorem C87_false : Answered sampleHost (openSession b!"gtxn  0 Fee") b!"u" b!"gtxn  0 Fee" (.signatureHelp ⟨0, 5⟩) (.signature b!"gtxn" 2) :=
  open_answered _ _ _ (by decide +kernel)

end Teal.Props
