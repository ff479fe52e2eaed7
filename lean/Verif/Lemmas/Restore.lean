import Verif.Lemmas.Row

/-! Which printed instructions are read as themselves. -/

namespace Teal
open Spec P Props

theorem kept_of_eval {addrOk : Bytes → Bool} {sh : Shape} {ver : Nat} {ws : List Bytes} {o : Op}
    (h : evalShape addrOk sh ver ws = some (o, [])) :
    (∀ w ∈ keptWords o, w ∈ ws) ∧ ∀ s, o = .method s → s.getLast? = some chQuote := by
  cases sh <;> simp only [evalShape, word_bind, opt_bind, ret_iff] at h
  case addr =>
    obtain ⟨x, xs, n, rfl, h2, rfl, rfl⟩ := h
    split at h2
    · injection h2 with h2; subst h2; simp [keptWords]
    · cases h2
  case method =>
    obtain ⟨x, xs, n, rfl, h2, rfl, rfl⟩ := h
    unfold quotedWord at h2
    split at h2
    · rename_i hq
      injection h2 with h2; subst h2; simpa [keptWords] using hq.2
    · cases h2
  case branch k =>
    obtain ⟨x, xs, n, rfl, h2, rfl, rfl⟩ := h
    injection h2 with h2; subst h2; simp [keptWords]
  case switch =>
    obtain ⟨v, h2, rfl⟩ := any_bind.1 h
    rw [(labels_all ver ws v).1 h2]
    simp [keptWords]
  case match_ =>
    obtain ⟨v, h2, rfl⟩ := any_bind.1 h
    rw [(labels_all ver ws v).1 h2]
    simp [keptWords]
  all_goals first
    | (obtain ⟨rfl, -⟩ := h; simp [keptWords]; done)
    | (obtain ⟨_, _, _, -, -, rfl, -⟩ := h; simp [keptWords]; done)
    | (obtain ⟨_, _, _, -, -, _, _, _, -, -, rfl, -⟩ := h; simp [keptWords]; done)
    | (obtain ⟨_, _, _, -, -, _, _, _, -, -, _, _, _, -, -, rfl, -⟩ := h; simp [keptWords]; done)
    | (obtain ⟨_, _, rfl⟩ := any_bind.1 h; simp [keptWords]; done)
    | (obtain ⟨-, rfl, -⟩ | ⟨_, _, _, -, -, rfl, -⟩ := h <;> simp [keptWords]; done)
    | (obtain ⟨_, _, _, -, -, ⟨-, rfl, -⟩ | ⟨_, _, _, -, -, rfl, -⟩⟩ := h <;> simp [keptWords]; done)
    | (obtain ⟨_, _, _, -, -, _, _, _, -, -, ⟨-, rfl, -⟩ | ⟨_, _, _, -, -, rfl, -⟩⟩ := h <;> simp [keptWords]; done)
    | (obtain ⟨-, rfl, -⟩ | ⟨_, _, _, -, -, _, _, _, -, -, rfl, -⟩ := h <;> simp [keptWords]; done)

theorem kept_of_ops {addrOk : Bytes → Bool} {ver : Nat} {ws : List Bytes} {o : Op} (h : opsOf addrOk ver ws = [o]) :
    (∀ w ∈ keptWords o, w ∈ ws) ∧ ∀ s, o = .method s → s.getLast? = some chQuote := by
  cases ws with
  | nil => injection h with h; subst h; simp [keptWords]
  | cons w ws =>
    rw [opsOf] at h
    split at h
    · split at h <;> (injection h with h; subst h; simp [keptWords])
    split at h
    · split at h <;> (injection h with h; subst h; simp [keptWords])
    split at h
    · rename_i e he
      generalize hev : evalShape addrOk e.shape ver ws = ev at h
      match ev, h with
      | none, h => injection h with h; subst h; simp [keptWords]
      | some (x, []), h =>
        injection h with h; subst h
        obtain ⟨h1, h2⟩ := kept_of_eval hev
        exact ⟨fun w hw => List.mem_cons_of_mem _ (h1 w hw), h2⟩
      | some (x, _ :: _), h => simp [readOps] at h
    · injection h with h; subst h; simp [keptWords]

/-! ## Names of fields -/

theorem nameless {g : FieldGroup} {f : Nat} (h : (documented g)[f]? = none) :
    (g.str f).take 7 = b!"invalid" ∧ Bare (g.str f) ∨ g.str f = g.typeName ++ (b!"(" ++ (formatUint f ++ b!")")) := by
  have hl : ∀ g : FieldGroup, g.index.length - 1 = (documented g).length + 1 ∧
      (g.str (documented g).length).take 7 = b!"invalid" ∧ Bare (g.str (documented g).length) := by intro g; cases g <;> decide +kernel
  rw [List.getElem?_eq_none_iff] at h
  obtain ⟨h1, h2⟩ := hl g
  by_cases he : f = (documented g).length
  · subst he; exact .inl h2
  · refine .inr ?_
    unfold FieldGroup.str
    rw [if_pos (by omega)]

theorem typeName_chars (g : FieldGroup) : g.typeName ≠ [] ∧ ∀ x ∈ g.typeName, 32 < x ∧ x ≠ 34 ∧ x ≠ 47 := by
  cases g <;> decide +kernel

theorem bare_field (g : FieldGroup) (f : Nat) : Bare (g.str f) := by
  cases h : (documented g)[f]? with
  | some d => rw [(group_name h).1]; exact (group_name h).2
  | none =>
    rcases nameless h with h | h
    · exact h.2
    rw [h]
    obtain ⟨h1, h2⟩ := typeName_chars g
    refine bare_noslash (by simp [h1]) ?_
    intro x hx
    simp only [List.mem_append] at hx
    rcases hx with hx | hx | hx | hx
    · exact h2 x hx
    · simp only [List.mem_cons, List.not_mem_nil, or_false] at hx; subst hx; decide
    · exact uint_chars f x hx
    · simp only [List.mem_cons, List.not_mem_nil, or_false] at hx; subst hx; decide

/-- Without a name, what is printed is neither a name nor a number. -/
theorem nameless_unread {g : FieldGroup} {f : Nat} (h : (documented g)[f]? = none) :
    (∀ g', ∀ d ∈ documented g', d.name ≠ g.str f) ∧ (∀ d ∈ txnFields, d.name ≠ g.str f) ∧ ∀ n, ¬ IsByte (g.str f) n := by
  have hm : (40 : UInt8) ∈ g.str f ∨ (g.str f).take 7 = b!"invalid" := by
    rcases nameless h with h | h
    · exact .inr h.1
    · rw [h]; simp
  have h1 : ∀ g, ∀ d ∈ documented g, ¬ ((40 : UInt8) ∈ d.name ∨ d.name.take 7 = b!"invalid") := by intro g; cases g <;> decide +kernel
  have h2 : ∀ d ∈ txnFields, ¬ ((40 : UInt8) ∈ d.name ∨ d.name.take 7 = b!"invalid") := by decide +kernel
  refine ⟨fun g' d hd he => h1 g' d hd (he ▸ hm), fun d hd he => h2 d hd (he ▸ hm), ?_⟩
  rintro n ⟨-, ds, hp, -⟩
  have hdig : ∀ x ∈ g.str f, ∃ d, digitValue x = some d ∧ d < 10 := by
    intro x hx
    have : digitValue x ∈ ds.map some := hp.1 ▸ List.mem_map_of_mem hx
    obtain ⟨d, h4, h3⟩ := List.mem_map.1 this
    exact ⟨d, h3.symm, hp.2 d h4⟩
  rcases hm with hm | hm
  · obtain ⟨d, h3, -⟩ := hdig 40 hm
    have h4 : digitValue 40 = none := by decide
    rw [h4] at h3; cases h3
  · have : (105 : UInt8) ∈ g.str f := List.mem_of_mem_take (i := 7) (by rw [hm]; decide)
    obtain ⟨d, h3, h5⟩ := hdig 105 this
    have h4 : ¬ (digitValue 105).getD 10 < 10 := by decide
    rw [h3] at h4
    exact h4 h5

theorem documented_inj {g : FieldGroup} {i j : Nat} {d e : DocField} (h1 : (documented g)[i]? = some d) (h2 : (documented g)[j]? = some e)
    (h : d.name = e.name) : i = j := by
  have := C15_field_version g (max d.since e.since) i d h1
  rw [h, C15_field_version g _ j e h2, if_pos (by omega), if_pos (by omega)] at this
  injection this with this
  injection this with this
  exact this.symm

theorem group_restored {g : FieldGroup} {ver f : Nat} :
    (readFieldWith (.group g) ver (g.str f)).map (·.field) = some f ↔ Named (documented g) ver f := by
  rw [field_iff]
  constructor
  · rintro (⟨d, h1, -, h3⟩ | ⟨h1, h2⟩)
    · exact ⟨d, h1, h3⟩
    · exfalso
      cases h : (documented g)[f]? with
      | some d => exact h1 d (List.mem_of_getElem? h) (group_name h).1.symm
      | none => exact (nameless_unread h).2.2 _ h2
  · rintro ⟨d, h1, h2⟩
    exact .inl ⟨d, h1, (group_name h1).1.symm, h2⟩

theorem txn_documented {f : Nat} (h : txnFields[f]? = none) : (documented .txn)[f]? = none := by
  rw [documented, List.getElem?_map, h]; rfl

theorem txn_unread {c : FieldContext} {ver f : Nat} (h : txnFields[f]? = none) :
    (readFieldWith (.txn c) ver (FieldGroup.txn.str f)).map (·.field) ≠ some f := by
  obtain ⟨h1, h2, h3⟩ := nameless_unread (txn_documented h)
  intro hr
  have hr : (readTxnField c ver (FieldGroup.txn.str f)).map (·.field) = some f := hr
  generalize FieldGroup.txn.str f = w at h1 h2 h3 hr
  rw [C16_txn_by_number c ver _ h2] at hr
  replace hr : (readFieldWith (.group .txn) ver w).map (·.field) = some f := hr
  rcases (field_iff .txn ver _ f).1 hr with ⟨d, h4, h5, -⟩ | ⟨-, h4⟩
  · exact h1 .txn d (List.mem_of_getElem? h4) h5
  · exact h3 f h4

theorem txn_restored {ver f : Nat} :
    (readFieldWith (.txn .txn) ver (FieldGroup.txn.str f)).map (·.field) = some f ↔ TxnNamed ver f := by
  cases h : txnFields[f]? with
  | none =>
    refine ⟨fun hr => absurd hr (txn_unread h), ?_⟩
    rintro ⟨d, h1, -⟩
    rw [h] at h1; cases h1
  | some d =>
    rw [(txn_name h).1]
    show (readTxnField .txn ver d.name).map _ = _ ↔ _
    rw [C15_txn_version ver f d h]
    unfold TxnNamed
    rw [h]
    split <;> simp_all

theorem array_restored {ver f : Nat} :
    (readFieldWith (.txn .txna) ver (FieldGroup.txn.str f)).map (·.field) = some f ↔ TxnArray f := by
  cases h : txnFields[f]? with
  | none =>
    refine ⟨fun hr => absurd hr (txn_unread h), ?_⟩
    rintro ⟨d, h1, -⟩
    rw [h] at h1; cases h1
  | some d =>
    rw [(txn_name h).1]
    show (readTxnField .txna ver d.name).map _ = _ ↔ _
    rw [C15_txna_partial ver f d h]
    unfold TxnArray
    rw [h]
    split <;> simp_all

theorem inner_restored {ver f : Nat} :
    (readFieldWith (.txn .itxn) ver (FieldGroup.txn.str f)).map (·.field) = some f ↔
      ∃ d n, txnFields[f]? = some d ∧ d.inner = some n ∧ n ≤ ver := by
  cases h : txnFields[f]? with
  | none =>
    refine ⟨fun hr => absurd hr (txn_unread h), ?_⟩
    rintro ⟨d, _, h1, -⟩
    cases h1
  | some d =>
    rw [(txn_name h).1]
    show (readTxnField .itxn ver d.name).map _ = _ ↔ _
    rw [C15_itxn_version ver f d h]
    cases hi : d.inner with
    | none => simp [hi]
    | some n =>
      dsimp only
      split <;> simp_all

/-! ## Instructions -/

theorem ops_iff {addrOk : Bytes → Bool} {ver : Nat} {w : Bytes} {ws : List Bytes} {o : Op} {sh : Shape}
    (he : (opsGet w).map (·.shape) = some sh) (ho : o ≠ .empty) :
    opsOf addrOk ver (w :: ws) = [o] ↔ evalShape addrOk sh ver ws = some (o, []) := by
  refine ⟨fun h => ?_, ops_instr he⟩
  obtain ⟨e, h1, rfl⟩ := Option.map_eq_some_iff.1 he
  have hn := opsList_names e (opsGet_mem h1).1
  rw [(opsGet_mem h1).2] at hn
  rw [opsOf, if_neg hn.1, if_neg hn.2.2, h1] at h
  dsimp only at h
  generalize evalShape addrOk e.shape ver ws = ev at h
  match ev, h with
  | none, h => injection h with h; exact absurd h.symm ho
  | some (x, []), h => injection h with h; subst h; rfl
  | some (x, _ :: _), h => simp [readOps] at h

/-- The line an instruction is printed as, and when it is read as the instruction. -/
def Restores (addrOk : Bytes → Bool) (o : Op) (P : Nat → Prop) : Prop :=
  ∃ ws, Row o.str ws ∧ (∀ m, o = .pragma m → ws = [b!"#pragma", b!"version", formatUint m]) ∧
    ∀ ver, opsOf addrOk ver ws = [o] ↔ P ver

theorem restores_words {addrOk : Bytes → Bool} {o : Op} {w : Bytes} {ws : List Bytes} {sh : Shape} {P : Nat → Prop}
    (he : (opsGet w).map (·.shape) = some sh) (hw : Bare w) (hws : ∀ w ∈ ws, Writes w w) (hs : o.str = lineText (w :: ws))
    (ho : o ≠ .empty ∧ ∀ m, o ≠ .pragma m) (h : ∀ ver, evalShape addrOk sh ver ws = some (o, []) ↔ P ver) : Restores addrOk o P :=
  ⟨w :: ws, hs ▸ row_all (by simpa using ⟨hw.writes, hws⟩), fun m hm => absurd hm (ho.2 m), fun ver => (ops_iff he ho.1).trans (h ver)⟩

theorem restores_reread {addrOk : Bytes → Bool} {o : Op} (h : ∃ ws, o.str = lineText ws ∧ (∀ w ∈ ws, Writes w w) ∧ ∀ ver, opsOf addrOk ver ws = [o])
    (ho : ∀ m, o ≠ .pragma m) : Restores addrOk o fun _ => True := by
  obtain ⟨ws, h1, h2, h3⟩ := h
  exact ⟨ws, h1 ▸ row_all h2, fun m hm => absurd hm (ho m), fun ver => by simp [h3 ver]⟩

theorem eval_field {addrOk : Bytes → Bool} {r : FieldReader} {k : FieldOp} {ver f : Nat} {p : Bytes} :
    evalShape addrOk (.field r k) ver [p] = some (Op.field k f, []) ↔ (readFieldWith r ver p).map (·.field) = some f := by
  simp only [evalShape, word_bind, ret_iff]
  constructor
  · rintro ⟨x, xs, n, h1, h2, h3, -⟩
    simp only [List.cons.injEq, Op.field.injEq, true_and] at h1 h3
    rw [h1.1, ← h3]; exact h2
  · intro h
    exact ⟨_, _, _, rfl, h, rfl, rfl⟩

theorem eval_fieldOpt {addrOk : Bytes → Bool} {k : FieldOp} {k' : FieldIdxOp} {ver f : Nat} {p : Bytes} :
    evalShape addrOk (.fieldOptIdx k k') ver [p] = some (Op.field k f, []) ↔
      (readFieldWith (.txn .txn) ver p).map (·.field) = some f := by
  simp only [evalShape, word_bind, opt_bind, ret_iff]
  constructor
  · rintro ⟨x, xs, n, h1, h2, h3⟩
    simp only [List.cons.injEq] at h1
    rcases h3 with h3 | ⟨y, ys, m, h4, -⟩
    · have h3 := h3.2.1
      simp only [Op.field.injEq, true_and] at h3
      rw [h1.1, ← h3]; exact h2
    · rw [h4] at h1
      exact absurd h1.2.symm (by simp)
  · intro h
    exact ⟨_, _, _, rfl, h, .inl ⟨rfl, rfl, trivial⟩⟩

theorem bare_printed (k : FieldOp) (f : Nat) : Bare (printField k.printGroup f) := by
  unfold printField
  split
  · exact bare_field _ f
  · exact bare_uint f

theorem field_eval {addrOk : Bytes → Bool} {k : FieldOp} {ver f : Nat} (hf : f < 256) :
    evalShape addrOk (fieldShape k) ver [printField k.printGroup f] = some (Op.field k f, []) ↔ PrintableField ver k f := by
  cases k
  case txn => exact eval_fieldOpt.trans txn_restored
  case gtxns => exact eval_fieldOpt.trans txn_restored
  case itxn => exact eval_field.trans txn_restored
  case itxnField => exact eval_field.trans inner_restored
  case txnas => exact eval_field.trans array_restored
  case gtxnsas => exact eval_field.trans array_restored
  case itxnas => exact eval_field.trans array_restored
  case globalOp => exact eval_field.trans group_restored
  case assetHoldingGet => exact eval_field.trans group_restored
  case assetParamsGet => exact eval_field.trans group_restored
  case appParamsGet => exact eval_field.trans group_restored
  case acctParamsGet => exact eval_field.trans group_restored
  case vrfVerify => exact eval_field.trans group_restored
  case block => exact eval_field.trans group_restored
  all_goals exact eval_field.trans ⟨fun _ => trivial, fun _ => read_number hf⟩

theorem field_restores {addrOk : Bytes → Bool} {k : FieldOp} {f : Nat} (hf : f < 256) :
    Restores addrOk (.field k f) fun ver => PrintableField ver k f :=
  restores_words (w := k.str) (ws := [printField k.printGroup f]) (field_str k).1 (field_str k).2
    (by simpa using (bare_printed k f).writes) rfl (by simp) fun _ => field_eval hf

end Teal
