import Verif.Spec.Complete
import Verif.Lemmas.Label
import Verif.Props.Prepare
import Verif.Props.Lsp2

/-! # Completion: what the code looks up -/

namespace Teal.Lsp

open Teal Teal.Spec Teal.Lsp.Spec Teal.Props

theorem meant_pointed {rest : List Token} {c : Int} {i : Nat} (h : Meant rest c i) : Pointed rest c i := by
  cases h with
  | next h => exact .off fun t ht ⟨_, h2⟩ => by have := h t ht; omega
  | on i t h hb he hp => exact .on i t h hb he fun j p hj hp' ⟨_, h2⟩ => by have := hp j p hj hp'; omega

/-- The operand `immAt` finds. -/
theorem immAt_pointed {w : Token} {rest : List Token} {c : Int} {i : Nat} (h : Pointed rest c i) :
    (∃ t, rest[i]? = some t ∧ immAt (w :: rest) c = some (t, i)) ∨ (immAt (w :: rest) c = none ∧ i = rest.length) := by
  unfold immAt
  rw [List.drop_one, List.tail_cons]
  cases h with
  | off h =>
    have : rest.zipIdx.find? (fun p => decide (c ≥ p.1.b) && decide (c ≤ p.1.e)) = none := by
      rw [List.find?_eq_none]
      rintro ⟨t, j⟩ ht
      have := h t (List.mem_of_getElem? ((List.mk_mem_zipIdx_iff_getElem?).1 ht))
      simp only [Bool.and_eq_true, decide_eq_true_eq]
      omega
    rw [this]
    exact .inr ⟨rfl, rfl⟩
  | on i t h hb he hp =>
    have : rest.zipIdx.find? (fun p => decide (c ≥ p.1.b) && decide (c ≤ p.1.e)) = some (t, i) := by
      obtain ⟨hi, h'⟩ := List.getElem?_eq_some_iff.1 h
      rw [List.find?_eq_some_iff_getElem]
      refine ⟨by simp; omega, i, by simpa using hi, by simp [h'], ?_⟩
      intro j hj
      have := hp j rest[j] hj (List.getElem?_eq_getElem (by omega))
      simp only [List.getElem_zipIdx, Bool.not_eq_true', Bool.and_eq_false_imp, decide_eq_true_eq, decide_eq_false_iff_not]
      omega
    rw [this]
    exact .inl ⟨t, h, rfl⟩

/-- The lines of the result, by their words. -/
theorem lines_begins {env : Env} {src : Bytes} {r : ProcessResult} (h : process env src = some r) {k : Nat} {w : Token}
    {rest : List Token} (hw : Begins (tokens src) k w rest) : k < r.lines.length ∧ r.lines.getD k [] = w :: rest := by
  obtain ⟨os, hr, ha⟩ := process_run h
  obtain ⟨lds, -, -, -, -, -, -, hl, -⟩ := assemble_eq ha
  have hwk : w ∈ tokens src ∧ w.l = k := by
    rcases hw with hw | ⟨-, hw⟩
    · have := mem_words.1 (by rw [hw]; simp : w ∈ words (tokens src) k)
      exact ⟨this.1, this.2.1⟩
    · have := mem_comments.1 (by rw [hw]; simp : w ∈ comments (tokens src) k)
      exact ⟨this.1, this.2.1⟩
  have hlt : k < lineCount (tokens src) := by
    have h1 := line_lt_count src w hwk.1
    omega
  have hget : (linesOf src)[k]? = some (w :: rest) := by
    rw [linesOf_get]
    refine ⟨hlt, ?_⟩
    unfold lineTokens
    rcases hw with hw | ⟨hw, hc⟩
    · rw [if_neg]
      · exact hw.symm
      · unfold tokens at hw; rw [hw]; simp
    · unfold tokens at hw hc
      rw [if_pos hw, hc]
  rw [lines_length h]
  exact ⟨hlt, by rw [hl, List.getD_eq_getElem?_getD, hget]; rfl⟩

theorem lines_words {env : Env} {src : Bytes} {r : ProcessResult} (h : process env src = some r) {k : Nat} {w : Token}
    {rest : List Token} (hw : words (tokens src) k = w :: rest) : k < r.lines.length ∧ r.lines.getD k [] = w :: rest :=
  lines_begins h (.inl hw)

theorem begins_lines {env : Env} {src : Bytes} {r : ProcessResult} (h : process env src = some r) {k : Nat} {w : Token}
    {rest : List Token} (hl : r.lines.getD k [] = w :: rest) : Begins (tokens src) k w rest := by
  obtain ⟨os, hr, ha⟩ := process_run h
  obtain ⟨lds, -, -, -, -, -, -, hlin, -⟩ := assemble_eq ha
  have hget : (linesOf src)[k]? = some (w :: rest) := by
    cases hk : (linesOf src)[k]? with
    | none => rw [hlin, List.getD_eq_getElem?_getD, hk] at hl; cases hl
    | some l => rw [hlin, List.getD_eq_getElem?_getD, hk] at hl; exact congrArg some hl
  have := ((linesOf_get src k _).1 hget).2
  unfold lineTokens at this
  unfold Begins tokens
  split at this
  · rename_i hw; exact .inr ⟨hw, this.symm⟩
  · exact .inl this.symm

theorem lines_empty {env : Env} {src : Bytes} {r : ProcessResult} (h : process env src = some r) {k : Nat}
    (hw : ∀ t ∈ tokens src, t.l ≠ k) : r.lines.getD k [] = [] := by
  cases hl : r.lines.getD k [] with
  | nil => rfl
  | cons t ts =>
    have := lines_mem h (k := k) (t := t) (by rw [hl]; simp)
    exact absurd this.2 (hw t this.1)

theorem hasLabel_iff {env : Env} {src : Bytes} {r : ProcessResult} (h : process env src = some r) (n : Bytes) :
    HasLabel (tokens src) n ↔ ∃ s ∈ r.symbols, s.name = n := by
  have hd : HasLabel (tokens src) n ↔ DefinesLabel src n := Iff.rfl
  rw [hd, defines_iff]
  have hsym := C20_symbols env src r h
  constructor
  · rintro ⟨k, t, h1, rfl⟩
    obtain ⟨s, h2, h3, -⟩ := (mem_symbols h t.v.dropLast k t.b t.e).2 ⟨t, h1, by
      unfold labelWord at h1
      rw [Option.filter_eq_some_iff] at h1
      have := h1.2
      unfold labelName at this ⊢
      split at this
      · rename_i h; rw [if_pos h]
      · simp at this, rfl, rfl⟩
    exact ⟨s, h2, h3⟩
  · rintro ⟨s, hs, rfl⟩
    obtain ⟨t, h1, h2, -⟩ := (mem_symbols h s.name s.l s.b s.e).1 ⟨s, hs, rfl, rfl, rfl, rfl⟩
    refine ⟨s.l, t, h1, ?_⟩
    unfold labelName at h2
    split at h2
    · exact Option.some.inj h2
    · cases h2

/-- The kinds of operands, by opcode. -/
def kindRow (e : OpEntry) (i : Nat) : Bool :=
  match e.shape.args[i]? with
  | some ⟨.label, false⟩ => decide (i = 0) && decide (e.name ∈ [b!"b", b!"bz", b!"bnz", b!"callsub"])
  | some ⟨.label, true⟩ => decide (i = 0) && decide (e.name ∈ [b!"switch", b!"match"])
  | some ⟨.constInt, a⟩ => decide (i = 0) && decide (e.name = b!"int") && !a
  | some ⟨.field (.group g), a⟩ => !a && fieldOps.any fun x => decide (x.1 = e.name) && decide (x.2.1 = documented g)
  | some ⟨.field (.txn c), a⟩ => !a && decide (e.name ∉ fieldOps.map (·.1)) && decide ((c = .itxn) ↔ e.name = b!"itxn_field")
  | _ => true

theorem kindRows : ∀ e ∈ opsList, ∀ i : Nat, kindRow e i = true := by
  have h3 : ∀ e ∈ opsList, e.shape.args.length ≤ 3 := by decide +kernel
  have h : ∀ e ∈ opsList, ∀ i ∈ [0, 1, 2], kindRow e i = true := by decide +kernel
  intro e he i
  by_cases hi : i < 3
  · exact h e he i (by simp; omega)
  · unfold kindRow
    rw [List.getElem?_eq_none (by have := h3 e he; omega)]

/-- The rows of a group that are not for transactions are the documented ones. -/
theorem since_row (g : FieldGroup) : ∀ s ∈ g.specs, ((documented g).filter fun d => d.name == g.str s.field).map (·.since) = [s.version] := by
  cases g <;> decide +kernel

theorem txn_row : ∀ s ∈ txnFieldSpecs, (txnFields.filter fun d => d.name == FieldGroup.txn.str s.field).map (fun d => (d.since, d.inner.getD 0)) =
    [(s.version, s.itxVersion)] := by decide +kernel

theorem fieldOps_unique {w : Bytes} {names names' : List DocField} {k k' : FieldOp} (h : (w, names, k) ∈ fieldOps) (h' : (w, names', k') ∈ fieldOps) :
    names = names' := by
  have := (by decide +kernel : ∀ x ∈ fieldOps, ∀ y ∈ fieldOps, x.1 = y.1 → x.2.1 = y.2.1)
  exact this _ h _ h' rfl

/-- A row of a table is known in the versions it says. -/
theorem known_row {e : OpEntry} (he : e ∈ opsList) {i : Nat} {f : FieldReader} {a : Bool} (ha : e.shape.args[i]? = some ⟨.field f, a⟩)
    {p : FieldSpec × Nat} (hp : p ∈ f.rows) (V : Nat) : KnownAt V e.name (f.table.str p.1.field) ↔ p.2 ≤ V := by
  have hrow := kindRows e he i
  unfold kindRow at hrow
  rw [ha] at hrow
  have one : ∀ {α : Type} {l : List α} {q : α → Bool} {g : α → Nat} {v : Nat}, (l.filter q).map g = [v] → ((∀ d ∈ l, q d = true → g d ≤ V) ↔ v ≤ V) := by
    intro α l q g v h
    have h2 : ∀ x, x ∈ (l.filter q).map g ↔ x = v := by intro x; rw [h]; simp
    constructor
    · intro h1
      obtain ⟨d, h3, h4⟩ := List.mem_map.1 ((h2 v).2 rfl)
      rw [List.mem_filter] at h3
      rw [← h4]; exact h1 d h3.1 h3.2
    · intro h1 d hd hq
      rw [(h2 (g d)).1 (List.mem_map.2 ⟨d, List.mem_filter.2 ⟨hd, hq⟩, rfl⟩)]
      exact h1
  cases f with
  | group g =>
    simp only [Bool.and_eq_true, List.any_eq_true, decide_eq_true_eq] at hrow
    obtain ⟨_, ⟨w, names, k⟩, hx, rfl, rfl⟩ := hrow
    simp only [FieldReader.rows, List.mem_map] at hp
    obtain ⟨s, hs, rfl⟩ := hp
    have hk := one (since_row g s hs)
    simp only [beq_iff_eq] at hk
    simp only [FieldReader.table]
    rw [← hk]
    constructor
    · intro h d hd hn
      exact h.field _ k hx d hd hn
    · intro h
      refine ⟨fun names k' hx' d hd hn => ?_, fun hi => ?_, fun _ hno => ?_⟩
      · rw [← fieldOps_unique hx hx'] at hd; exact h d hd hn
      · have := (by decide +kernel : ∀ x ∈ fieldOps, x.1 ≠ b!"itxn_field")
        exact absurd hi (this _ hx)
      · exact absurd (List.mem_map.2 ⟨_, hx, rfl⟩) hno
  | txn c =>
    simp only [Bool.and_eq_true, decide_eq_true_eq] at hrow
    obtain ⟨⟨_, hno⟩, hc⟩ := hrow
    have hno' : ∀ names k, (e.name, names, k) ∉ fieldOps := fun names k h => hno (List.mem_map.2 ⟨_, h, rfl⟩)
    by_cases hi : c = .itxn
    · subst hi
      have hw := hc.1 rfl
      simp only [FieldReader.rows, List.mem_map, List.mem_filter, decide_eq_true_eq] at hp
      obtain ⟨s, ⟨hs, hpos⟩, rfl⟩ := hp
      have hr := txn_row s hs
      have hk := one (v := s.itxVersion) (l := txnFields) (g := fun d => d.inner.getD 0) (q := fun d => d.name == FieldGroup.txn.str s.field) (by
        have := congrArg (List.map Prod.snd) hr
        simpa using this)
      simp only [beq_iff_eq] at hk
      simp only [FieldReader.table]
      rw [← hk]
      constructor
      · intro h d hd hn
        cases hin : d.inner with
        | none => simp
        | some n => simpa using h.inner hw d hd hn n hin
      · intro h
        refine ⟨fun names k hx => absurd hx (hno' _ _), fun _ d hd hn n hin => ?_, fun hne => absurd hw hne⟩
        have := h d hd hn
        rw [hin] at this
        simpa using this
    · have hw : e.name ≠ b!"itxn_field" := fun h => hi (hc.2 h)
      have : ∃ s ∈ txnFieldSpecs, p = (s, s.version) := by
        cases c with
        | itxn => exact absurd rfl hi
        | txn =>
          simp only [FieldReader.rows, List.mem_map] at hp
          obtain ⟨s, hs, rfl⟩ := hp
          exact ⟨s, hs, rfl⟩
        | txna =>
          simp only [FieldReader.rows, List.mem_map, List.mem_filter] at hp
          obtain ⟨s, hs, rfl⟩ := hp
          exact ⟨s, hs.1, rfl⟩
      obtain ⟨s, hs, rfl⟩ := this
      have hr := txn_row s hs
      have hk := one (v := s.version) (l := txnFields) (g := fun d => d.since) (q := fun d => d.name == FieldGroup.txn.str s.field) (by
        have := congrArg (List.map Prod.fst) hr
        simpa using this)
      simp only [beq_iff_eq] at hk
      simp only [FieldReader.table]
      rw [← hk]
      constructor
      · intro h d hd hn
        exact h.txn hw hno d hd hn
      · intro h
        exact ⟨fun names k hx => absurd hx (hno' _ _), fun hi => absurd hi hw, fun _ _ d hd hn => h d hd hn⟩

theorem row_unique {f : FieldReader} : ∀ p ∈ f.rows, ∀ q ∈ f.rows, p.1.field = q.1.field → p = q := by
  cases f with
  | group g => cases g <;> decide +kernel
  | txn c => cases c <;> decide +kernel

/-- The fields offered for an operand. -/
theorem field_candidates {e : OpEntry} {w : Bytes} (he : opsGet w = some e) {i : Nat} {f : FieldReader} {a : Bool}
    (ha : e.shape.args[i]? = some ⟨.field f, a⟩) (V n : Nat) (name : Bytes) :
    (∃ p ∈ f.rows, p.2 ≤ V ∧ f.table.str p.1.field = name ∧ p.1.field = n) ↔ FieldName w i n name ∧ KnownAt V w name := by
  obtain ⟨hm, hw⟩ := opsGet_mem he
  rw [fieldName_iff]
  constructor
  · rintro ⟨p, hp, hv, rfl, rfl⟩
    refine ⟨⟨e, _, he, ha, ?_, ?_⟩, ?_⟩
    · have hs : p.1 ∈ f.table.specs := by
        cases f with
        | group g =>
          simp only [FieldReader.rows, List.mem_map] at hp
          obtain ⟨s, hs, rfl⟩ := hp; exact hs
        | txn c =>
          cases c <;> simp only [FieldReader.rows, List.mem_map, List.mem_filter] at hp
          · obtain ⟨s, hs, rfl⟩ := hp; exact hs
          · obtain ⟨s, hs, rfl⟩ := hp; exact hs.1
          · obtain ⟨s, hs, rfl⟩ := hp; exact hs.1
      exact str_pos _ _ hs
    · simp only [argFieldName]
      rw [if_pos]
      · simp
      · exact List.any_eq_true.2 ⟨p, hp, by simp⟩
    · rw [← hw]; exact (known_row hm ha hp V).2 hv
  · rintro ⟨⟨e', a', he', ha', hne, hn⟩, hk⟩
    cases he.symm.trans he'
    cases ha.symm.trans ha'
    simp only [argFieldName] at hn
    split at hn
    · rename_i hany
      obtain ⟨p, hp, hf⟩ := List.any_eq_true.1 hany
      have hf : p.1.field = n := Int.ofNat_inj.1 (by simpa using hf)
      have hstr : f.table.str p.1.field = name := by rw [hf]; simpa using hn
      refine ⟨p, hp, ?_, hstr, hf⟩
      rw [← hstr, ← hw] at hk
      exact (known_row hm ha hp V).1 hk
    · exact absurd hn.symm hne

end Teal.Lsp
