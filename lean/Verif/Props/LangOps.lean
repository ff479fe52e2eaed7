import Verif.Spec.LangOps
import Verif.Props.Instr
import Verif.Props.LangSpec
import Verif.Props.VmStack

/-!
# C94: the language specification of the package agrees with the rest of it
-/

namespace Teal.Props
open Teal Teal.Spec

/-! ## The rows -/

/-- Every note is one of those of C54. -/
theorem row_note : ∀ r ∈ langOps, r.note ∈ Imm.notes.map Prod.fst := by decide +kernel

/-- How many operands an opcode can have that always has the same number. -/
def fixedCounts : List (Bytes × Nat) :=
  plainOps.map (fun p => (p.1, 0)) ++ [(b!"replace", 0), (b!"extract", 0)] ++ byteOps.map (fun p => (p.1, 1)) ++
  byteByteOps.map (fun p => (p.1, 2)) ++ [(b!"frame_dig", 1), (b!"frame_bury", 1)] ++ fieldOps.map (fun p => (p.1, 1)) ++
  [(b!"txn", 1), (b!"gtxns", 1), (b!"itxn", 1), (b!"txn", 2), (b!"gtxns", 2), (b!"itxn_field", 1),
   (b!"txnas", 1), (b!"gtxnsas", 1), (b!"itxnas", 1), (b!"txna", 2), (b!"gtxnsa", 2), (b!"itxna", 2),
   (b!"gtxn", 2), (b!"gitxn", 2), (b!"gtxnas", 2), (b!"gitxnas", 2), (b!"gtxn", 3), (b!"gtxna", 3), (b!"gitxna", 3),
   (b!"int", 1), (b!"pushint", 1), (b!"addr", 1), (b!"method", 1),
   (b!"bnz", 1), (b!"bz", 1), (b!"b", 1), (b!"callsub", 1)]

/-- Opcodes that can have several numbers of operands. -/
def openCounts : List Bytes :=
  [b!"intcblock", b!"pushints", b!"byte", b!"pushbytes", b!"bytecblock", b!"pushbytess", b!"switch", b!"match"]

theorem instr_count {addrOk : Bytes → Bool} {ver : Nat} {w : Bytes} {ws : List Bytes} {o : Op} (h : Instr addrOk ver w ws o) :
    (w, ws.length) ∈ fixedCounts ∨ w ∈ openCounts := by
  cases h with
  | plain w k h =>
    refine .inl ?_
    unfold fixedCounts
    simp only [List.append_assoc, List.mem_append]
    exact .inl (List.mem_map.2 ⟨_, h, rfl⟩)
  | byteOp w x k n h hx =>
    refine .inl ?_
    unfold fixedCounts
    simp only [List.append_assoc, List.mem_append]
    exact .inr (.inr (.inl (List.mem_map.2 ⟨_, h, rfl⟩)))
  | byteByteOp w x y k m n h hx hy =>
    refine .inl ?_
    unfold fixedCounts
    simp only [List.append_assoc, List.mem_append]
    exact .inr (.inr (.inr (.inl (List.mem_map.2 ⟨_, h, rfl⟩))))
  | fieldOp w x names k i h hx =>
    refine .inl ?_
    unfold fixedCounts
    simp only [List.append_assoc, List.mem_append]
    exact .inr (.inr (.inr (.inr (.inr (.inl (List.mem_map.2 ⟨_, h, rfl⟩))))))
  | smallOp w x k i h hx => exact .inl (by simp at h; rcases h with ⟨rfl, -⟩ | ⟨rfl, -⟩ <;> (simp only [List.length_cons, List.length_nil]; decide))
  | txn w x k f h hx => exact .inl (by simp at h; rcases h with ⟨rfl, -⟩ | ⟨rfl, -⟩ | ⟨rfl, -⟩ <;> (simp only [List.length_cons, List.length_nil]; decide))
  | txnAt w x y k f i h hx hy => exact .inl (by simp at h; rcases h with ⟨rfl, -⟩ | ⟨rfl, -⟩ <;> (simp only [List.length_cons, List.length_nil]; decide))
  | array w x k f h hx => exact .inl (by simp at h; rcases h with ⟨rfl, -⟩ | ⟨rfl, -⟩ | ⟨rfl, -⟩ <;> (simp only [List.length_cons, List.length_nil]; decide))
  | arrayAt w x y k f i h hx hy => exact .inl (by simp at h; rcases h with ⟨rfl, -⟩ | ⟨rfl, -⟩ | ⟨rfl, -⟩ <;> (simp only [List.length_cons, List.length_nil]; decide))
  | group w x y k t f h hx hy => exact .inl (by simp at h; rcases h with ⟨rfl, -⟩ | ⟨rfl, -⟩ <;> (simp only [List.length_cons, List.length_nil]; decide))
  | groupArray w x y k t f h hx hy => exact .inl (by simp at h; rcases h with ⟨rfl, -⟩ | ⟨rfl, -⟩ <;> (simp only [List.length_cons, List.length_nil]; decide))
  | groupArrayAt w x y z k t f i h hx hy hz => exact .inl (by simp at h; rcases h with ⟨rfl, -⟩ | ⟨rfl, -⟩ <;> (simp only [List.length_cons, List.length_nil]; decide))
  | branch w l k h => exact .inl (by simp at h; rcases h with ⟨rfl, -⟩ | ⟨rfl, -⟩ | ⟨rfl, -⟩ | ⟨rfl, -⟩ <;> (simp only [List.length_cons, List.length_nil]; decide))
  | replace3 => exact .inl (by decide)
  | extract3 => exact .inl (by decide)
  | inner x f hx => exact .inl (by show (b!"itxn_field", 1) ∈ _; decide)
  | groupAt x y z t f i hx hy hz => exact .inl (by show (b!"gtxn", 3) ∈ _; decide)
  | int x n hx => exact .inl (by show (b!"int", 1) ∈ _; decide)
  | pushint x n hx => exact .inl (by show (b!"pushint", 1) ∈ _; decide)
  | addr x h => exact .inl (by show (b!"addr", 1) ∈ _; decide)
  | method s => exact .inl (by show (b!"method", 1) ∈ _; decide)
  | intcblock ws vs h => exact .inr (by decide)
  | pushints ws vs h => exact .inr (by decide)
  | byte ws v h => exact .inr (by decide)
  | pushbytes ws v h => exact .inr (by decide)
  | bytecblock ws vs h => exact .inr (by decide)
  | pushbytess ws vs h => exact .inr (by decide)
  | switch ls => exact .inr (by decide)
  | match_ ls => exact .inr (by decide)

theorem row_counts : (∀ r ∈ langOps, ∀ p ∈ fixedCounts, p.1 = r.name → p.2 = (immediates r).length ∨
      (r.name ∈ [b!"txn", b!"gtxn", b!"gtxns"] ∧ p.2 = (immediates r).length + 1) ∨ (r.name = b!"extract" ∧ p.2 = 0)) ∧
    ∀ r ∈ langOps, r.name ∈ openCounts → ∃ a ∈ immediates r, a.array = true ∨ a.name = b!"{bytes}" := by
  decide +kernel

/-- The operands of an instruction of a row. -/
theorem instr_row {addrOk : Bytes → Bool} {ver : Nat} {r : LangOp} (hr : r ∈ langOps) {ws : List Bytes} {o : Op}
    (h : Instr addrOk ver r.name ws o) : ws.length = (immediates r).length ∨ OtherForm r.name ws (immediates r).length ∨ ManyWords r := by
  rcases instr_count h with h | h
  · rcases row_counts.1 r hr _ h rfl with h | ⟨h, h'⟩ | ⟨h, h'⟩
    · exact .inl h
    · exact .inr (.inl (.inl ⟨h, h'⟩))
    · exact .inr (.inl (.inr ⟨h, List.eq_nil_of_length_eq_zero h'⟩))
  · exact .inr (.inr (row_counts.2 r hr h))

theorem row_plainName : ∀ r ∈ langOps, r.name.getLast? ≠ some chColon ∧ r.name ≠ b!"#pragma" := by decide +kernel

/-! ## Fields -/

/-- The letters of a row give the types of transaction fields. -/
def TxnLetters (r : LangOp) : Prop :=
  ∀ p ∈ r.argEnum.zip r.argEnumTypes, ∀ q ∈ txnFields.zipIdx, q.1.name = p.1 → txnType q.2 = letterType p.2

instance (r : LangOp) : Decidable (TxnLetters r) := inferInstanceAs (Decidable (∀ p ∈ _, _))

theorem row_txn : ∀ r ∈ langOps, r.name ∈ [b!"txn", b!"gtxns", b!"itxn", b!"gtxn", b!"gitxn"] →
    r.argEnum = txnFields.map (·.name) ∧ fieldImmediate r = (if r.name ∈ [b!"gtxn", b!"gitxn"] then 1 else 0) ∧ TxnLetters r := by
  decide +kernel

theorem row_array : ∀ r ∈ langOps, r.argEnum ≠ [] →
    r.name ∈ [b!"txnas", b!"gtxnsas", b!"itxnas", b!"txna", b!"gtxnsa", b!"itxna", b!"gtxnas", b!"gitxnas", b!"gtxna", b!"gitxna"] →
    r.argEnum = (txnFields.filter (·.array)).map (·.name) ∧
    fieldImmediate r = (if r.name ∈ [b!"gtxna", b!"gitxna", b!"gtxnas", b!"gitxnas"] then 1 else 0) ∧ TxnLetters r := by
  decide +kernel

theorem row_inner : ∀ r ∈ langOps, r.name = b!"itxn_field" →
    r.argEnum = (txnFields.filter (·.inner.isSome)).map (·.name) ∧ fieldImmediate r = 0 := by
  decide +kernel

theorem row_field : ∀ r ∈ langOps, r.argEnum ≠ [] → ∀ p ∈ fieldOps, p.1 = r.name →
    r.argEnum = p.2.1.map (·.name) ∧ fieldImmediate r = 0 ∧
    ∀ l ∈ r.argEnum.zip r.argEnumTypes, ∀ q ∈ p.2.1.zipIdx, q.1.name = l.1 →
      (effect (.field p.2.2 q.2)).map (fun e => e.2.head?) = some (some (letterType l.2)) := by
  decide +kernel

/-- The opcodes with a field among their immediates. -/
def enumOps : List Bytes :=
  [b!"txn", b!"global", b!"gtxn", b!"txna", b!"gtxna", b!"gtxns", b!"gtxnsa", b!"asset_holding_get", b!"asset_params_get",
   b!"app_params_get", b!"acct_params_get", b!"itxn_field", b!"itxn", b!"itxna", b!"gitxn", b!"gitxna", b!"txnas", b!"gtxnas",
   b!"gtxnsas"]

theorem row_enumOps : ∀ r ∈ langOps, r.argEnum ≠ [] → r.name ∈ enumOps := by decide +kernel

theorem row_since : (∀ d ∈ txnFields, d.since ≤ langVersion ∧ ∀ n, d.inner = some n → n ≤ langVersion) ∧
    ∀ p ∈ fieldOps, p.1 ∈ enumOps → ∀ d ∈ p.2.1, d.since ≤ langVersion := by
  have h : (∀ d ∈ txnFields, d.since ≤ langVersion ∧ d.inner.getD 0 ≤ langVersion) ∧
    ∀ p ∈ fieldOps, p.1 ∈ enumOps → ∀ d ∈ p.2.1, d.since ≤ langVersion := by decide +kernel
  refine ⟨fun d hd => ⟨(h.1 d hd).1, fun n hn => ?_⟩, h.2⟩
  have := (h.1 d hd).2
  rwa [hn] at this

/-- What is known of an instruction of a row with fields: the operand that is a field, and the type of
the value of the field. -/
structure FieldFacts (r : LangOp) (ws : List Bytes) (o : Op) (x : Bytes) : Prop where
  at_ : ws[fieldImmediate r]? = some x
  name : x ∈ r.argEnum ∨ ∃ n, IsByte x n
  others : ∀ y ∈ ws.eraseIdx (fieldImmediate r), ∃ n, IsByte y n
  type : ∀ (i : Nat) (c : UInt8), r.argEnum[i]? = some x → r.argEnumTypes[i]? = some c →
    ∀ args rets t, effect o = some (args, rets) → rets.head? = some t → t = letterType c

theorem zip_mem {α β : Type} {l : List α} {m : List β} {i : Nat} {x : α} {y : β} (h : l[i]? = some x) (h' : m[i]? = some y) :
    (x, y) ∈ l.zip m := by
  apply List.mem_of_getElem? (i := i)
  rw [List.getElem?_zip_eq_some]
  exact ⟨h, h'⟩

theorem txn_facts {ok : DocTxnField → Prop} {x : Bytes} {f : Nat} {r : LangOp} {ws : List Bytes} {o : Op} (h : IsTxn ok x f)
    (hn : ∀ d ∈ txnFields, ok d → d.name ∈ r.argEnum) (hsub : ∀ w ∈ r.argEnum, ∃ d ∈ txnFields, d.name = w)
    (hat : ws[fieldImmediate r]? = some x) (hoth : ∀ y ∈ ws.eraseIdx (fieldImmediate r), ∃ n, IsByte y n)
    (ht : TxnLetters r ∨ ∀ e, effect o = some e → e.2 = [])
    (he : ∀ args rets t, effect o = some (args, rets) → rets.head? = some t → t = txnType f) : FieldFacts r ws o x := by
  refine ⟨hat, ?_, hoth, ?_⟩
  · rcases h with ⟨d, hd, rfl, hok⟩ | ⟨-, h⟩
    · exact .inl (hn d (List.mem_of_getElem? hd) hok)
    · exact .inr ⟨f, h⟩
  · intro i c hi hc args rets t heff htt
    rcases ht with ht | ht
    · rcases h with ⟨d, hd, rfl, hok⟩ | ⟨h, -⟩
      · rw [he args rets t heff htt]
        exact ht _ (zip_mem hi hc) (d, f) (by rw [List.mem_zipIdx_iff_getElem?]; exact hd) rfl
      · obtain ⟨d, hd, hdn⟩ := hsub x (List.mem_of_getElem? hi)
        exact absurd hdn (h d hd)
    · have h0 : rets = [] := ht _ heff
      rw [h0] at htt; cases htt

/-- The rows of transaction fields. -/
theorem txn_row_facts {addrOk : Bytes → Bool} {ver : Nat} {r : LangOp} (hr : r ∈ langOps) {x : Bytes} {f : Nat} {ws : List Bytes} {o : Op}
    (hw : r.name ∈ [b!"txn", b!"gtxns", b!"itxn", b!"gtxn", b!"gitxn"]) {ok : DocTxnField → Prop} (h : IsTxn ok x f)
    (hat : ws[if r.name ∈ [b!"gtxn", b!"gitxn"] then 1 else 0]? = some x)
    (hoth : ∀ y ∈ ws.eraseIdx (if r.name ∈ [b!"gtxn", b!"gitxn"] then 1 else 0), ∃ n, IsByte y n)
    (he : ∀ args rets t, effect o = some (args, rets) → rets.head? = some t → t = txnType f) : FieldFacts r ws o x := by
  obtain ⟨h1, h2, h3⟩ := row_txn r hr hw
  refine txn_facts h (fun d hd _ => by rw [h1]; exact List.mem_map.2 ⟨d, hd, rfl⟩) (fun w hw => ?_) (by rw [h2]; exact hat) (by rw [h2]; exact hoth) (.inl h3) he
  rw [h1] at hw
  obtain ⟨d, hd, rfl⟩ := List.mem_map.1 hw
  exact ⟨d, hd, rfl⟩

theorem array_row_facts {ver : Nat} {r : LangOp} (hr : r ∈ langOps) (hne : r.argEnum ≠ []) {x : Bytes} {f : Nat} {ws : List Bytes} {o : Op}
    (hw : r.name ∈ [b!"txnas", b!"gtxnsas", b!"itxnas", b!"txna", b!"gtxnsa", b!"itxna", b!"gtxnas", b!"gitxnas", b!"gtxna", b!"gitxna"])
    (h : IsArrayField ver x f)
    (hat : ws[if r.name ∈ [b!"gtxna", b!"gitxna", b!"gtxnas", b!"gitxnas"] then 1 else 0]? = some x)
    (hoth : ∀ y ∈ ws.eraseIdx (if r.name ∈ [b!"gtxna", b!"gitxna", b!"gtxnas", b!"gitxnas"] then 1 else 0), ∃ n, IsByte y n)
    (he : ∀ args rets t, effect o = some (args, rets) → rets.head? = some t → t = txnType f) : FieldFacts r ws o x := by
  obtain ⟨h1, h2, h3⟩ := row_array r hr hne hw
  refine txn_facts h (fun d hd hok => by rw [h1]; exact List.mem_map.2 ⟨d, List.mem_filter.2 ⟨hd, hok.1⟩, rfl⟩) (fun w hw => ?_)
    (by rw [h2]; exact hat) (by rw [h2]; exact hoth) (.inl h3) he
  rw [h1] at hw
  obtain ⟨d, hd, rfl⟩ := List.mem_map.1 hw
  exact ⟨d, (List.mem_filter.1 hd).1, rfl⟩

theorem eff_head {o : Op} {a : List StackType} {t0 : StackType} {l : List StackType} (h : effect o = some (a, t0 :: l)) :
    ∀ args rets t, effect o = some (args, rets) → rets.head? = some t → t = t0 := by
  intro args rets t he ht
  rw [h] at he
  cases he
  exact (Option.some.inj ht).symm

theorem one_byte {y : Bytes} {n : Nat} (h : IsByte y n) : ∀ z ∈ [y], ∃ n, IsByte z n := by
  intro z hz
  rw [List.mem_singleton.1 hz]
  exact ⟨n, h⟩

theorem two_bytes {y z : Bytes} {m n : Nat} (h : IsByte y m) (h' : IsByte z n) : ∀ x ∈ [y, z], ∃ n, IsByte x n := by
  intro x hx
  simp only [List.mem_cons, List.not_mem_nil, or_false] at hx
  rcases hx with rfl | rfl
  · exact ⟨m, h⟩
  · exact ⟨n, h'⟩

theorem instr_field {addrOk : Bytes → Bool} {ver : Nat} {r : LangOp} (hr : r ∈ langOps) (hne : r.argEnum ≠ [])
    {ws : List Bytes} {o : Op} (h : Instr addrOk ver r.name ws o) : ∃ x, FieldFacts r ws o x := by
  have hen := row_enumOps r hr hne
  generalize hrw : r.name = w at h
  rw [hrw] at hen
  have no : ∀ {α : Type} {l : List (Bytes × α)} {k : α}, (w, k) ∈ l → (∀ p ∈ l, p.1 ∉ enumOps) → ∃ x, FieldFacts r ws o x :=
    fun hk hl => absurd hen (hl _ hk)
  cases h with
  | plain w k h => exact no h (by decide +kernel)
  | byteOp w x k n h hx => exact no h (by decide +kernel)
  | byteByteOp w x y k m n h hx hy => exact no h (by decide +kernel)
  | smallOp w x k i h hx => exact no h (by decide +kernel)
  | branch w l k h => exact no h (by decide +kernel)
  | replace3 => exact absurd hen (by decide +kernel)
  | extract3 => exact absurd hen (by decide +kernel)
  | int x n hx => exact absurd hen (by decide +kernel)
  | pushint x n hx => exact absurd hen (by decide +kernel)
  | addr x h => exact absurd hen (by decide +kernel)
  | method s => exact absurd hen (by decide +kernel)
  | intcblock ws vs h => exact absurd hen (by decide +kernel)
  | pushints ws vs h => exact absurd hen (by decide +kernel)
  | byte ws v h => exact absurd hen (by decide +kernel)
  | pushbytes ws v h => exact absurd hen (by decide +kernel)
  | bytecblock ws vs h => exact absurd hen (by decide +kernel)
  | pushbytess ws vs h => exact absurd hen (by decide +kernel)
  | switch ls => exact absurd hen (by decide +kernel)
  | match_ ls => exact absurd hen (by decide +kernel)
  | fieldOp w x names k i h hx =>
    subst hrw
    obtain ⟨h1, h2, h3⟩ := row_field r hr hne _ h rfl
    refine ⟨x, by rw [h2]; rfl, ?_, by rw [h2]; simp, ?_⟩
    · rcases hx with ⟨d, hd, rfl, -⟩ | ⟨-, hb⟩
      · exact .inl (by rw [h1]; exact List.mem_map.2 ⟨d, List.mem_of_getElem? hd, rfl⟩)
      · exact .inr ⟨i, hb⟩
    · intro j c hj hc args rets t he ht
      rcases hx with ⟨d, hd, rfl, -⟩ | ⟨hno, -⟩
      · have := h3 _ (zip_mem hj hc) (d, i) (by rw [List.mem_zipIdx_iff_getElem?]; exact hd) rfl
        rw [he] at this
        simp only [Option.map_some, Option.some.injEq] at this
        rw [ht] at this
        exact Option.some.inj this
      · have hm := List.mem_of_getElem? hj
        rw [h1] at hm
        obtain ⟨d, hd, hdn⟩ := List.mem_map.1 hm
        exact absurd hdn (hno d hd)
  | txn w x k f h hx =>
    subst hrw
    simp only [List.mem_cons, Prod.mk.injEq, List.not_mem_nil, or_false] at h
    rcases h with ⟨h, rfl⟩ | ⟨h, rfl⟩ | ⟨h, rfl⟩ <;>
      exact ⟨x, txn_row_facts (addrOk := addrOk) (ver := ver) hr (by rw [h]; decide) hx (by rw [h]; rfl) (by rw [h]; simp) (eff_head rfl)⟩
  | txnAt w x y k f i h hx hy =>
    subst hrw
    simp only [List.mem_cons, Prod.mk.injEq, List.not_mem_nil, or_false] at h
    rcases h with ⟨h, rfl⟩ | ⟨h, rfl⟩ <;>
      exact ⟨x, txn_row_facts (addrOk := addrOk) (ver := ver) hr (by rw [h]; decide) hx (by rw [h]; rfl) (by rw [h]; exact one_byte hy) (eff_head rfl)⟩
  | inner x f hx =>
    obtain ⟨h1, h2⟩ := row_inner r hr hrw
    refine ⟨x, txn_facts hx (fun d hd hok => ?_) (fun w hw => ?_) (by rw [h2]; rfl) (by rw [h2]; simp) (.inr fun e he => by cases he; rfl)
      (fun args rets t he ht => by cases he; cases ht)⟩
    · rw [h1]
      obtain ⟨n, hn, -⟩ := hok
      exact List.mem_map.2 ⟨d, List.mem_filter.2 ⟨hd, by rw [hn]; rfl⟩, rfl⟩
    · rw [h1] at hw
      obtain ⟨d, hd, rfl⟩ := List.mem_map.1 hw
      exact ⟨d, (List.mem_filter.1 hd).1, rfl⟩
  | array w x k f h hx =>
    subst hrw
    simp only [List.mem_cons, Prod.mk.injEq, List.not_mem_nil, or_false] at h
    rcases h with ⟨h, rfl⟩ | ⟨h, rfl⟩ | ⟨h, rfl⟩ <;>
      exact ⟨x, array_row_facts hr hne (by rw [h]; decide) hx (by rw [h]; rfl) (by rw [h]; simp) (eff_head rfl)⟩
  | arrayAt w x y k f i h hx hy =>
    subst hrw
    simp only [List.mem_cons, Prod.mk.injEq, List.not_mem_nil, or_false] at h
    rcases h with ⟨h, rfl⟩ | ⟨h, rfl⟩ | ⟨h, rfl⟩ <;>
      exact ⟨x, array_row_facts hr hne (by rw [h]; decide) hx (by rw [h]; rfl) (by rw [h]; exact one_byte hy) (eff_head rfl)⟩
  | group w x y k t f h hx hy =>
    subst hrw
    simp only [List.mem_cons, Prod.mk.injEq, List.not_mem_nil, or_false] at h
    rcases h with ⟨h, rfl⟩ | ⟨h, rfl⟩ <;>
      exact ⟨y, txn_row_facts (addrOk := addrOk) (ver := ver) hr (by rw [h]; decide) hy (by rw [h]; rfl) (by rw [h]; exact one_byte hx) (eff_head rfl)⟩
  | groupArray w x y k t f h hx hy =>
    subst hrw
    simp only [List.mem_cons, Prod.mk.injEq, List.not_mem_nil, or_false] at h
    rcases h with ⟨h, rfl⟩ | ⟨h, rfl⟩ <;>
      exact ⟨y, array_row_facts hr hne (by rw [h]; decide) hy (by rw [h]; rfl) (by rw [h]; exact one_byte hx) (eff_head rfl)⟩
  | groupAt x y z t f i hx hy hz =>
    exact ⟨y, txn_row_facts (addrOk := addrOk) (ver := ver) hr (by rw [hrw]; decide) hy (by rw [hrw]; rfl) (by rw [hrw]; exact two_bytes hx hz) (eff_head rfl)⟩
  | groupArrayAt w x y z k t f i h hx hy hz =>
    subst hrw
    simp only [List.mem_cons, Prod.mk.injEq, List.not_mem_nil, or_false] at h
    rcases h with ⟨h, rfl⟩ | ⟨h, rfl⟩ <;>
      exact ⟨y, array_row_facts hr hne (by rw [h]; decide) hy (by rw [h]; rfl) (by rw [h]; exact two_bytes hx hz) (eff_head rfl)⟩

/-! ### Every name is accepted -/

/-- A text that does not begin with a digit. -/
def NoDigit (w : Bytes) : Prop := ∀ c l, w = c :: l → ∀ n, digitValue c = some n → 10 ≤ n

theorem names_noDigit : (∀ d ∈ txnFields, NoDigit d.name) ∧ ∀ p ∈ fieldOps, p.1 ∈ enumOps → ∀ d ∈ p.2.1, NoDigit d.name := by
  have h : (∀ d ∈ txnFields, (digitValue (d.name.headD 48)).getD 10 ≥ 10) ∧
      ∀ p ∈ fieldOps, p.1 ∈ enumOps → ∀ d ∈ p.2.1, (digitValue (d.name.headD 48)).getD 10 ≥ 10 := by decide +kernel
  have key : ∀ w : Bytes, (digitValue (w.headD 48)).getD 10 ≥ 10 → NoDigit w := by
    rintro w hw c l rfl n hn
    simp only [List.headD_cons, hn, Option.getD_some] at hw
    exact hw
  exact ⟨fun d hd => key _ (h.1 d hd), fun p hp he d hd => key _ (h.2 p hp he d hd)⟩

theorem byte_digit {w : Bytes} {n : Nat} (h : IsByte w n) : ¬ NoDigit w := by
  obtain ⟨hne, ds, ⟨hd, hlt⟩, -⟩ := h
  intro hn
  cases w with
  | nil => exact hne rfl
  | cons c l =>
    cases ds with
    | nil => simp at hd
    | cons d ds =>
      simp only [List.map_cons, List.cons.injEq] at hd
      have := hn c l rfl d hd.1
      have := hlt d (by simp)
      omega

theorem txn_ok {ok : DocTxnField → Prop} {x : Bytes} {l : List Bytes} (hl : ∀ w ∈ l, ∃ d ∈ txnFields, d.name = w ∧ ok d)
    (h : x ∈ l ∨ ∃ n, IsByte x n) : ∃ f, IsTxn ok x f := by
  rcases h with h | ⟨n, h⟩
  · obtain ⟨d, hd, hn, hok⟩ := hl x h
    obtain ⟨i, hi⟩ := List.mem_iff_getElem?.1 hd
    exact ⟨i, .inl ⟨d, hi, hn, hok⟩⟩
  · exact ⟨n, .inr ⟨fun d hd hn => byte_digit h (hn ▸ names_noDigit.1 d hd), h⟩⟩

theorem txn_row_ok {r : LangOp} (hr : r ∈ langOps) (hw : r.name ∈ [b!"txn", b!"gtxns", b!"itxn", b!"gtxn", b!"gitxn"]) {x : Bytes}
    (h : x ∈ r.argEnum ∨ ∃ n, IsByte x n) : ∃ f, IsTxnField langVersion x f := by
  obtain ⟨h1, -⟩ := row_txn r hr hw
  refine txn_ok (fun w hw => ?_) h
  rw [h1] at hw
  obtain ⟨d, hd, rfl⟩ := List.mem_map.1 hw
  exact ⟨d, hd, rfl, (row_since.1 d hd).1⟩

theorem array_row_ok {r : LangOp} (hr : r ∈ langOps) (hne : r.argEnum ≠ [])
    (hw : r.name ∈ [b!"txnas", b!"gtxnsas", b!"itxnas", b!"txna", b!"gtxnsa", b!"itxna", b!"gtxnas", b!"gitxnas", b!"gtxna", b!"gitxna"])
    {x : Bytes} (h : x ∈ r.argEnum ∨ ∃ n, IsByte x n) : ∃ f, IsArrayField langVersion x f := by
  obtain ⟨h1, -⟩ := row_array r hr hne hw
  refine txn_ok (fun w hw => ?_) h
  rw [h1] at hw
  obtain ⟨d, hd, rfl⟩ := List.mem_map.1 hw
  obtain ⟨h2, h3⟩ := List.mem_filter.1 hd
  exact ⟨d, h2, rfl, h3, (row_since.1 d h2).1⟩

theorem field_row_ok {r : LangOp} (hr : r ∈ langOps) (hne : r.argEnum ≠ []) {p : Bytes × List DocField × FieldOp} (hp : p ∈ fieldOps)
    (hw : p.1 = r.name) {x : Bytes} (h : x ∈ r.argEnum ∨ ∃ n, IsByte x n) : ∃ i, IsField p.2.1 langVersion x i := by
  obtain ⟨h1, -⟩ := row_field r hr hne p hp hw
  have he : p.1 ∈ enumOps := hw ▸ row_enumOps r hr hne
  rcases h with h | ⟨n, h⟩
  · rw [h1] at h
    obtain ⟨d, hd, rfl⟩ := List.mem_map.1 h
    obtain ⟨i, hi⟩ := List.mem_iff_getElem?.1 hd
    exact ⟨i, .inl ⟨d, hi, rfl, row_since.2 p hp he d hd⟩⟩
  · exact ⟨n, .inr ⟨fun d hd hn => byte_digit h (hn ▸ names_noDigit.2 p hp he d hd), h⟩⟩

/-- How many immediates the rows with fields have. -/
theorem row_immediates : ∀ r ∈ langOps, r.argEnum ≠ [] →
    ((immediates r).length, fieldImmediate r) =
      (if r.name ∈ [b!"gtxna", b!"gitxna"] then (3, 1) else if r.name ∈ [b!"gtxn", b!"gitxn", b!"gtxnas"] then (2, 1)
       else if r.name ∈ [b!"txna", b!"gtxnsa", b!"itxna"] then (2, 0) else (1, 0)) := by decide +kernel

theorem length_one {ws : List Bytes} {x : Bytes} (hl : ws.length = 1) (hx : ws[0]? = some x) : ws = [x] := by
  match ws, hl with
  | [a], _ => cases hx; rfl

theorem field_instr (addrOk : Bytes → Bool) {r : LangOp} (hr : r ∈ langOps) (hne : r.argEnum ≠ []) {ws : List Bytes} {x : Bytes}
    (hl : ws.length = (immediates r).length) (hx : ws[fieldImmediate r]? = some x)
    (h : x ∈ r.argEnum ∨ ∃ n, IsByte x n) (ho : ∀ y ∈ ws.eraseIdx (fieldImmediate r), ∃ n, IsByte y n) :
    ∃ o, Instr addrOk langVersion r.name ws o := by
  have hi := row_immediates r hr hne
  have hen := row_enumOps r hr hne
  have one : (immediates r).length = 1 → fieldImmediate r = 0 → ws = [x] := fun h1 h2 =>
    length_one (hl.trans h1) (h2 ▸ hx)
  have back : (immediates r).length = 2 → fieldImmediate r = 0 → ∃ y n, ws = [x, y] ∧ IsByte y n := by
    intro h1 h2
    rw [h2] at hx ho
    match ws, hl.trans h1 with
    | [a, y], _ =>
      cases hx
      obtain ⟨n, hn⟩ := ho y (by simp)
      exact ⟨y, n, rfl, hn⟩
  have front : (immediates r).length = 2 → fieldImmediate r = 1 → ∃ y n, ws = [y, x] ∧ IsByte y n := by
    intro h1 h2
    rw [h2] at hx ho
    match ws, hl.trans h1 with
    | [y, a], _ =>
      cases hx
      obtain ⟨n, hn⟩ := ho y (by simp)
      exact ⟨y, n, rfl, hn⟩
  have mid : (immediates r).length = 3 → fieldImmediate r = 1 → ∃ y z m n, ws = [y, x, z] ∧ IsByte y m ∧ IsByte z n := by
    intro h1 h2
    rw [h2] at hx ho
    match ws, hl.trans h1 with
    | [y, a, z], _ =>
      cases hx
      obtain ⟨m, hm⟩ := ho y (by simp)
      obtain ⟨n, hn⟩ := ho z (by simp)
      exact ⟨y, z, m, n, rfl, hm, hn⟩
  have field : ∀ k l, (r.name, l, k) ∈ fieldOps → (immediates r).length = 1 → fieldImmediate r = 0 →
      ∃ o, Instr addrOk langVersion r.name ws o := by
    intro k l hp h1 h2
    obtain ⟨i, hi⟩ := field_row_ok hr hne hp rfl h
    rw [one h1 h2]
    exact ⟨_, .fieldOp _ _ _ _ _ hp hi⟩
  simp only [enumOps, List.mem_cons, List.not_mem_nil, or_false] at hen
  rcases hen with h1 | h1 | h1 | h1 | h1 | h1 | h1 | h1 | h1 | h1 | h1 | h1 | h1 | h1 | h1 | h1 | h1 | h1 | h1 <;> rw [h1] at hi <;>
    obtain ⟨hi, hi'⟩ := Prod.mk.inj hi
  · obtain ⟨f, hf⟩ := txn_row_ok hr (by rw [h1]; decide) h
    rw [one hi hi', h1]; exact ⟨_, .txn _ _ .txn _ (by decide) hf⟩
  · exact field .globalOp globalFields (by rw [h1]; unfold fieldOps; simp) hi hi'
  · obtain ⟨f, hf⟩ := txn_row_ok hr (by rw [h1]; decide) h
    obtain ⟨y, n, rfl, hy⟩ := front hi hi'
    rw [h1]; exact ⟨_, .group _ _ _ .gtxn _ _ (by decide) hy hf⟩
  · obtain ⟨f, hf⟩ := array_row_ok hr hne (by rw [h1]; decide) h
    obtain ⟨y, n, rfl, hy⟩ := back hi hi'
    rw [h1]; exact ⟨_, .arrayAt _ _ _ .txna _ _ (by decide) hf hy⟩
  · obtain ⟨f, hf⟩ := array_row_ok hr hne (by rw [h1]; decide) h
    obtain ⟨y, z, m, n, rfl, hy, hz⟩ := mid hi hi'
    rw [h1]; exact ⟨_, .groupArrayAt _ _ _ _ .gtxna _ _ _ (by decide) hy hf hz⟩
  · obtain ⟨f, hf⟩ := txn_row_ok hr (by rw [h1]; decide) h
    rw [one hi hi', h1]; exact ⟨_, .txn _ _ .gtxns _ (by decide) hf⟩
  · obtain ⟨f, hf⟩ := array_row_ok hr hne (by rw [h1]; decide) h
    obtain ⟨y, n, rfl, hy⟩ := back hi hi'
    rw [h1]; exact ⟨_, .arrayAt _ _ _ .gtxnsa _ _ (by decide) hf hy⟩
  · exact field .assetHoldingGet assetHoldingFields (by rw [h1]; unfold fieldOps; simp) hi hi'
  · exact field .assetParamsGet assetParamsFields (by rw [h1]; unfold fieldOps; simp) hi hi'
  · exact field .appParamsGet appParamsFields (by rw [h1]; unfold fieldOps; simp) hi hi'
  · exact field .acctParamsGet acctParamsFields (by rw [h1]; unfold fieldOps; simp) hi hi'
  · obtain ⟨h2, -⟩ := row_inner r hr h1
    obtain ⟨f, hf⟩ : ∃ f, IsInnerField langVersion x f := by
      refine txn_ok (fun w hw => ?_) h
      rw [h2] at hw
      obtain ⟨d, hd, rfl⟩ := List.mem_map.1 hw
      obtain ⟨h3, h4⟩ := List.mem_filter.1 hd
      obtain ⟨n, hn⟩ := Option.isSome_iff_exists.1 h4
      exact ⟨d, h3, rfl, n, hn, (row_since.1 d h3).2 n hn⟩
    rw [one hi hi', h1]; exact ⟨_, .inner _ _ hf⟩
  · obtain ⟨f, hf⟩ := txn_row_ok hr (by rw [h1]; decide) h
    rw [one hi hi', h1]; exact ⟨_, .txn _ _ .itxn _ (by decide) hf⟩
  · obtain ⟨f, hf⟩ := array_row_ok hr hne (by rw [h1]; decide) h
    obtain ⟨y, n, rfl, hy⟩ := back hi hi'
    rw [h1]; exact ⟨_, .arrayAt _ _ _ .itxna _ _ (by decide) hf hy⟩
  · obtain ⟨f, hf⟩ := txn_row_ok hr (by rw [h1]; decide) h
    obtain ⟨y, n, rfl, hy⟩ := front hi hi'
    rw [h1]; exact ⟨_, .group _ _ _ .gitxn _ _ (by decide) hy hf⟩
  · obtain ⟨f, hf⟩ := array_row_ok hr hne (by rw [h1]; decide) h
    obtain ⟨y, z, m, n, rfl, hy, hz⟩ := mid hi hi'
    rw [h1]; exact ⟨_, .groupArrayAt _ _ _ _ .gitxna _ _ _ (by decide) hy hf hz⟩
  · obtain ⟨f, hf⟩ := array_row_ok hr hne (by rw [h1]; decide) h
    rw [one hi hi', h1]; exact ⟨_, .array _ _ .txnas _ (by decide) hf⟩
  · obtain ⟨f, hf⟩ := array_row_ok hr hne (by rw [h1]; decide) h
    obtain ⟨y, n, rfl, hy⟩ := front hi hi'
    rw [h1]; exact ⟨_, .groupArray _ _ _ .gtxnas _ _ (by decide) hy hf⟩
  · obtain ⟨f, hf⟩ := array_row_ok hr hne (by rw [h1]; decide) h
    rw [one hi hi', h1]; exact ⟨_, .array _ _ .gtxnsas _ (by decide) hf⟩

/-! ## The stack -/

/-- Types at most as general: the same number, and the same type wherever the row gives one. -/
def Finer (ts us : List StackType) : Prop :=
  ts.length = us.length ∧ ∀ (i : Nat) (t u : StackType), ts[i]? = some t → us[i]? = some u → u = .any ∨ t = u

theorem finer_refl (ts : List StackType) : Finer ts ts :=
  ⟨rfl, fun i t u h h' => .inr (by rw [h] at h'; exact Option.some.inj h')⟩

theorem finer_any (t : StackType) (l : List StackType) : Finer (t :: l) (.any :: l) := by
  refine ⟨by simp, fun i t' u h h' => ?_⟩
  cases i with
  | zero => simp at h'; exact .inl h'.symm
  | succ i => simp at h h'; exact .inr (by rw [h] at h'; exact Option.some.inj h')

theorem results_finer {ts us : List StackType} {vs : List VmValue} (h : Finer ts us) (hr : Results ts vs) : Results us vs := by
  refine ⟨hr.1.trans h.1, fun i u v hu hv => ?_⟩
  rw [List.getElem?_reverse' (j := us.length - 1 - i) (by have := (List.getElem?_eq_some_iff.1 hu).1; simp at this; omega)] at hu
  have hi : us.length - 1 - i < us.length := (List.getElem?_eq_some_iff.1 hu).1
  have hlt : i < us.length := by
    have := (List.getElem?_eq_some_iff.1 hv).1
    have := hr.1; have := h.1
    omega
  have hj : us.length - 1 - i < ts.length := by rw [h.1]; exact hi
  have ht : ts[us.length - 1 - i]? = some ts[us.length - 1 - i] := List.getElem?_eq_getElem hj
  rcases h.2 _ _ _ ht hu with h1 | h1
  · exact .inl h1
  · have := hr.2 i _ v (by
      rw [List.getElem?_reverse' (j := us.length - 1 - i) (by rw [h.1]; omega)]
      exact ht) hv
    rw [h1] at this
    exact this

/-- What a row says of the stack is what `effect` says of the instruction `o`. -/
def Agrees (r : LangOp) (o : Op) : Prop :=
  ∀ args rets, effect o = some (args, rets) → args = letterTypes r.args ∧ Finer rets (letterTypes r.returns)

theorem agrees_of {r : LangOp} {o o' : Op} (h : effect o' = none ∨ effect o' = some (letterTypes r.args, letterTypes r.returns))
    (he : ∀ args rets, effect o = some (args, rets) → ∃ us, effect o' = some (args, us) ∧ Finer rets us) : Agrees r o := by
  intro args rets h1
  obtain ⟨us, h2, h3⟩ := he args rets h1
  rcases h with h | h
  · rw [h] at h2; cases h2
  · rw [h] at h2; cases h2
    exact ⟨rfl, h3⟩

theorem agrees_same {r : LangOp} {o o' : Op} (h : effect o' = none ∨ effect o' = some (letterTypes r.args, letterTypes r.returns))
    (he : effect o = effect o') : Agrees r o :=
  agrees_of h fun args rets h1 => ⟨rets, by rw [← he]; exact h1, finer_refl _⟩

theorem row_plain : ∀ r ∈ langOps, ∀ p ∈ plainOps, p.1 = r.name →
    effect (.plain p.2) = none ∨ effect (.plain p.2) = some (letterTypes r.args, letterTypes r.returns) := by decide +kernel

theorem row_u8 : ∀ r ∈ langOps, r.name ∉ depthOps → ∀ p ∈ byteOps, p.1 = r.name →
    p.2 ∉ [.bury, .popn, .dupn, .dig, .cover, .uncover] ∧
    (effect (.u8 p.2 0) = none ∨ effect (.u8 p.2 0) = some (letterTypes r.args, letterTypes r.returns)) := by decide +kernel

theorem row_u8u8 : ∀ r ∈ langOps, ∀ p ∈ byteByteOps, p.1 = r.name →
    effect (.u8u8 p.2 0 0) = none ∨ effect (.u8u8 p.2 0 0) = some (letterTypes r.args, letterTypes r.returns) := by decide +kernel

/-- Field number 1000 exists nowhere: its type is unknown. -/
theorem row_fieldOp : ∀ r ∈ langOps, ∀ p ∈ fieldOps, p.1 = r.name →
    effect (.field p.2.2 1000) = none ∨ effect (.field p.2.2 1000) = some (letterTypes r.args, letterTypes r.returns) := by decide +kernel

theorem row_others : ∀ r ∈ langOps, ∀ p ∈ ([(b!"extract", .plain .extract3), (b!"txn", .field .txn 1000), (b!"gtxns", .field .gtxns 1000),
    (b!"itxn", .field .itxn 1000), (b!"txn", .fieldIdx .txna 1000 0), (b!"gtxns", .fieldIdx .gtxnsa 1000 0),
    (b!"itxn_field", .field .itxnField 1000), (b!"txnas", .field .txnas 1000), (b!"gtxnsas", .field .gtxnsas 1000),
    (b!"itxnas", .field .itxnas 1000), (b!"txna", .fieldIdx .txna 1000 0), (b!"gtxnsa", .fieldIdx .gtxnsa 1000 0),
    (b!"itxna", .fieldIdx .itxna 1000 0), (b!"gtxn", .groupField .gtxn 0 1000), (b!"gitxn", .groupField .gitxn 0 1000),
    (b!"gtxnas", .groupField .gtxnas 0 1000), (b!"gitxnas", .groupField .gitxnas 0 1000),
    (b!"gtxn", .groupFieldIdx .gtxna 0 1000 0), (b!"gtxna", .groupFieldIdx .gtxna 0 1000 0),
    (b!"gitxna", .groupFieldIdx .gitxna 0 1000 0), (b!"pushint", .pushint 0), (b!"intcblock", .intcblock []),
    (b!"pushbytes", .pushbytes []), (b!"bytecblock", .bytecblock []), (b!"bnz", .branch .bnz []), (b!"bz", .branch .bz []),
    (b!"b", .branch .b []), (b!"callsub", .branch .callsub []), (b!"switch", .switch [])] : List (Bytes × Op)),
    p.1 = r.name → r.name ≠ b!"extract" →
    effect p.2 = none ∨ effect p.2 = some (letterTypes r.args, letterTypes r.returns) := by decide +kernel

theorem u8_same {k : U8Op} (h : k ∉ [.bury, .popn, .dupn, .dig, .cover, .uncover]) (n : Nat) : effect (.u8 k n) = effect (.u8 k 0) := by
  cases k <;> first | rfl | exact absurd (by decide) h

theorem field_finer (k : FieldOp) (f : Nat) : ∀ args rets, effect (.field k f) = some (args, rets) →
    ∃ us, effect (.field k 1000) = some (args, us) ∧ Finer rets us := by
  intro args rets h
  cases k <;> (cases h; first | exact ⟨_, rfl, finer_refl _⟩ | exact ⟨_, rfl, finer_any _ _⟩)

theorem finer_of {o o' : Op} {a : List StackType} {t : StackType} {l : List StackType} (h : effect o = some (a, t :: l))
    (h' : effect o' = some (a, .any :: l)) : ∀ args rets, effect o = some (args, rets) →
    ∃ us, effect o' = some (args, us) ∧ Finer rets us := by
  intro args rets he
  rw [h] at he; cases he
  exact ⟨_, h', finer_any _ _⟩

theorem instr_agrees {addrOk : Bytes → Bool} {ver : Nat} {r : LangOp} (hr : r ∈ langOps) (hd : r.name ∉ depthOps)
    {ws : List Bytes} {o : Op} (h : Instr addrOk ver r.name ws o) (hx : ¬ (r.name = b!"extract" ∧ ws = [])) : Agrees r o := by
  have other := row_others r hr
  generalize hrw : r.name = w at h
  have no : w ∈ depthOps → Agrees r o := fun h => absurd (hrw ▸ h) hd
  cases h with
  | plain w k h => exact agrees_same (row_plain r hr _ h hrw.symm) rfl
  | byteOp w x k n h hx =>
    obtain ⟨h1, h2⟩ := row_u8 r hr hd _ h hrw.symm
    exact agrees_same h2 (u8_same h1 n)
  | byteByteOp w x y k m n h hx hy =>
    refine agrees_same (row_u8u8 r hr _ h hrw.symm) ?_
    cases k <;> rfl
  | smallOp w x k i h hx => cases k <;> exact fun _ _ he => by cases he
  | fieldOp w x names k i h hx => exact agrees_of (row_fieldOp r hr _ h hrw.symm) (field_finer k i)
  | replace3 => exact absurd (List.mem_map.2 ⟨r, hr, hrw⟩ : b!"replace" ∈ langOps.map (·.name)) (by decide +kernel)
  | extract3 => exact absurd ⟨hrw, rfl⟩ hx
  | int x n hx => exact absurd (List.mem_map.2 ⟨r, hr, hrw⟩ : b!"int" ∈ langOps.map (·.name)) (by decide +kernel)
  | byte ws v h => exact absurd (List.mem_map.2 ⟨r, hr, hrw⟩ : b!"byte" ∈ langOps.map (·.name)) (by decide +kernel)
  | addr x h => exact absurd (List.mem_map.2 ⟨r, hr, hrw⟩ : b!"addr" ∈ langOps.map (·.name)) (by decide +kernel)
  | method s => exact absurd (List.mem_map.2 ⟨r, hr, hrw⟩ : b!"method" ∈ langOps.map (·.name)) (by decide +kernel)
  | pushints ws vs h => exact no (by decide)
  | pushbytess ws vs h => exact no (by decide)
  | match_ ls => exact no (by decide)
  | pushint x n hx => exact agrees_same (other (b!"pushint", .pushint 0) (by decide) hrw.symm (by rw [hrw]; decide)) rfl
  | intcblock ws vs h => exact agrees_same (other (b!"intcblock", .intcblock []) (by decide) hrw.symm (by rw [hrw]; decide)) rfl
  | pushbytes ws v h => exact agrees_same (other (b!"pushbytes", .pushbytes []) (by decide) hrw.symm (by rw [hrw]; decide)) rfl
  | bytecblock ws vs h => exact agrees_same (other (b!"bytecblock", .bytecblock []) (by decide) hrw.symm (by rw [hrw]; decide)) rfl
  | switch ls => exact agrees_same (other (b!"switch", .switch []) (by decide) hrw.symm (by rw [hrw]; decide)) rfl
  | inner x f hx => exact agrees_same (other (b!"itxn_field", .field .itxnField 1000) (by decide) hrw.symm (by rw [hrw]; decide)) rfl
  | branch w l k h =>
    subst hrw
    simp only [List.mem_cons, Prod.mk.injEq, List.not_mem_nil, or_false] at h
    rcases h with ⟨h, rfl⟩ | ⟨h, rfl⟩ | ⟨h, rfl⟩ | ⟨h, rfl⟩
    · exact agrees_same (other (b!"bnz", .branch .bnz []) (by decide) h.symm (by rw [h]; decide)) rfl
    · exact agrees_same (other (b!"bz", .branch .bz []) (by decide) h.symm (by rw [h]; decide)) rfl
    · exact agrees_same (other (b!"b", .branch .b []) (by decide) h.symm (by rw [h]; decide)) rfl
    · exact agrees_same (other (b!"callsub", .branch .callsub []) (by decide) h.symm (by rw [h]; decide)) rfl
  | txn w x k f h hx =>
    subst hrw
    simp only [List.mem_cons, Prod.mk.injEq, List.not_mem_nil, or_false] at h
    rcases h with ⟨h, rfl⟩ | ⟨h, rfl⟩ | ⟨h, rfl⟩
    · exact agrees_of (other (b!"txn", .field .txn 1000) (by decide) h.symm (by rw [h]; decide)) (finer_of rfl rfl)
    · exact agrees_of (other (b!"gtxns", .field .gtxns 1000) (by decide) h.symm (by rw [h]; decide)) (finer_of rfl rfl)
    · exact agrees_of (other (b!"itxn", .field .itxn 1000) (by decide) h.symm (by rw [h]; decide)) (finer_of rfl rfl)
  | txnAt w x y k f i h hx hy =>
    subst hrw
    simp only [List.mem_cons, Prod.mk.injEq, List.not_mem_nil, or_false] at h
    rcases h with ⟨h, rfl⟩ | ⟨h, rfl⟩
    · exact agrees_of (other (b!"txn", .fieldIdx .txna 1000 0) (by decide) h.symm (by rw [h]; decide)) (finer_of rfl rfl)
    · exact agrees_of (other (b!"gtxns", .fieldIdx .gtxnsa 1000 0) (by decide) h.symm (by rw [h]; decide)) (finer_of rfl rfl)
  | array w x k f h hx =>
    subst hrw
    simp only [List.mem_cons, Prod.mk.injEq, List.not_mem_nil, or_false] at h
    rcases h with ⟨h, rfl⟩ | ⟨h, rfl⟩ | ⟨h, rfl⟩
    · exact agrees_of (other (b!"txnas", .field .txnas 1000) (by decide) h.symm (by rw [h]; decide)) (finer_of rfl rfl)
    · exact agrees_of (other (b!"gtxnsas", .field .gtxnsas 1000) (by decide) h.symm (by rw [h]; decide)) (finer_of rfl rfl)
    · exact agrees_of (other (b!"itxnas", .field .itxnas 1000) (by decide) h.symm (by rw [h]; decide)) (finer_of rfl rfl)
  | arrayAt w x y k f i h hx hy =>
    subst hrw
    simp only [List.mem_cons, Prod.mk.injEq, List.not_mem_nil, or_false] at h
    rcases h with ⟨h, rfl⟩ | ⟨h, rfl⟩ | ⟨h, rfl⟩
    · exact agrees_of (other (b!"txna", .fieldIdx .txna 1000 0) (by decide) h.symm (by rw [h]; decide)) (finer_of rfl rfl)
    · exact agrees_of (other (b!"gtxnsa", .fieldIdx .gtxnsa 1000 0) (by decide) h.symm (by rw [h]; decide)) (finer_of rfl rfl)
    · exact agrees_of (other (b!"itxna", .fieldIdx .itxna 1000 0) (by decide) h.symm (by rw [h]; decide)) (finer_of rfl rfl)
  | group w x y k t f h hx hy =>
    subst hrw
    simp only [List.mem_cons, Prod.mk.injEq, List.not_mem_nil, or_false] at h
    rcases h with ⟨h, rfl⟩ | ⟨h, rfl⟩
    · exact agrees_of (other (b!"gtxn", .groupField .gtxn 0 1000) (by decide) h.symm (by rw [h]; decide)) (finer_of rfl rfl)
    · exact agrees_of (other (b!"gitxn", .groupField .gitxn 0 1000) (by decide) h.symm (by rw [h]; decide)) (finer_of rfl rfl)
  | groupArray w x y k t f h hx hy =>
    subst hrw
    simp only [List.mem_cons, Prod.mk.injEq, List.not_mem_nil, or_false] at h
    rcases h with ⟨h, rfl⟩ | ⟨h, rfl⟩
    · exact agrees_of (other (b!"gtxnas", .groupField .gtxnas 0 1000) (by decide) h.symm (by rw [h]; decide)) (finer_of rfl rfl)
    · exact agrees_of (other (b!"gitxnas", .groupField .gitxnas 0 1000) (by decide) h.symm (by rw [h]; decide)) (finer_of rfl rfl)
  | groupAt x y z t f i hx hy hz =>
    exact agrees_of (other (b!"gtxn", .groupFieldIdx .gtxna 0 1000 0) (by decide) hrw.symm (by rw [hrw]; decide)) (finer_of rfl rfl)
  | groupArrayAt w x y z k t f i h hx hy hz =>
    subst hrw
    simp only [List.mem_cons, Prod.mk.injEq, List.not_mem_nil, or_false] at h
    rcases h with ⟨h, rfl⟩ | ⟨h, rfl⟩
    · exact agrees_of (other (b!"gtxna", .groupFieldIdx .gtxna 0 1000 0) (by decide) h.symm (by rw [h]; decide)) (finer_of rfl rfl)
    · exact agrees_of (other (b!"gitxna", .groupFieldIdx .gitxna 0 1000 0) (by decide) h.symm (by rw [h]; decide)) (finer_of rfl rfl)

/-- Opcodes of subroutines and their frames, which C45 is about. -/
def frameOps : List Bytes := [b!"retsub", b!"proto", b!"frame_dig", b!"frame_bury"]

/-- The table has the other instructions. -/
theorem instr_effect {addrOk : Bytes → Bool} {ver : Nat} {w : Bytes} {ws : List Bytes} {o : Op} (h : Instr addrOk ver w ws o)
    (hw : w ∉ frameOps) : ∃ args rets, effect o = some (args, rets) := by
  have plain : ∀ p ∈ plainOps, p.1 ∉ frameOps → (effect (.plain p.2)).isSome = true := by decide +kernel
  have u8u8 : ∀ p ∈ byteByteOps, p.1 ∉ frameOps → p.2 ≠ .proto := by decide +kernel
  cases h with
  | plain w k h =>
    obtain ⟨e, he⟩ := Option.isSome_iff_exists.1 (plain _ h hw)
    exact ⟨e.1, e.2, he⟩
  | byteOp w x k n h hx => cases k <;> exact ⟨_, _, rfl⟩
  | byteByteOp w x y k m n h hx hy =>
    have := u8u8 _ h hw
    cases k <;> first | exact ⟨_, _, rfl⟩ | exact absurd rfl this
  | smallOp w x k i h hx =>
    simp only [List.mem_cons, Prod.mk.injEq, List.not_mem_nil, or_false] at h
    rcases h with ⟨rfl, -⟩ | ⟨rfl, -⟩ <;> exact absurd (by decide) hw
  | fieldOp w x names k i h hx => cases k <;> exact ⟨_, _, rfl⟩
  | txn w x k f h hx => cases k <;> exact ⟨_, _, rfl⟩
  | txnAt w x y k f i h hx hy => cases k <;> exact ⟨_, _, rfl⟩
  | array w x k f h hx => cases k <;> exact ⟨_, _, rfl⟩
  | arrayAt w x y k f i h hx hy => cases k <;> exact ⟨_, _, rfl⟩
  | group w x y k t f h hx hy => cases k <;> exact ⟨_, _, rfl⟩
  | groupArray w x y k t f h hx hy => cases k <;> exact ⟨_, _, rfl⟩
  | groupArrayAt w x y z k t f i h hx hy hz => cases k <;> exact ⟨_, _, rfl⟩
  | branch w l k h => cases k <;> exact ⟨_, _, rfl⟩
  | _ => exact ⟨_, _, rfl⟩

theorem not_depth {addrOk : Bytes → Bool} {ver : Nat} {w : Bytes} {ws : List Bytes} {n : Nat} {k : U8Op} (h : Instr addrOk ver w ws (.u8 k n))
    (hw : w ∉ depthOps) : k ≠ .dupn ∧ k ≠ .dig := by
  have hb : ∀ p ∈ byteOps, p.1 ∉ depthOps → p.2 ≠ .dupn ∧ p.2 ≠ .dig := by decide +kernel
  cases h with
  | byteOp w x k n h hx => exact hb _ h hw

/-! ## C94 -/

/-- **C94** The note of every row is read to its immediates: it lists them, one after the other. -/
theorem C94_notes : ∀ r ∈ langOps, ∃ gs : List Imm.Spec.Group, r.note = Imm.Spec.noteText gs ∧
    immediates r = gs.map fun g => { name := g.shown, array := g.isArray } := by
  intro r hr
  obtain ⟨p, hp, hn⟩ := List.mem_map.1 (row_note r hr)
  obtain ⟨h1, h2⟩ := C54_all_notes p hp
  refine ⟨p.2, by rw [← hn]; exact h1, ?_⟩
  rw [immediates, ← hn, h2]

/-- A word for an immediate: `x` for a field. -/
def immWord (x : Bytes) (a : Imm.ImmArg) : List Bytes :=
  if a.array = true then []
  else if a.name = b!"{label}" then [b!"l"]
  else if a.name = b!"{bytes}" then [b!"0x00"]
  else if EndsIn a.name b!" field index}" then [x]
  else [b!"0"]

/-- Operands for a row. -/
def rowWords (r : LangOp) : List Bytes := (immediates r).flatMap (immWord (r.argEnum.headD b!"Logs"))

/-- A program with the opcode of a row and operands. -/
def rowText (r : LangOp) (ws : List Bytes) : Bytes := b!"#pragma version 8\n" ++ r.name ++ ws.flatMap fun w => 32 :: w

/-- The kinds of diagnostics that do not say that the text is malformed or needs another version. -/
def mild : DiagKind → Bool
  | .lint _ => true
  | .mode _ => true
  | _ => false

theorem row_texts : ∀ r ∈ langOps, ((process sampleEnv (rowText r (rowWords r))).map fun x =>
    x.diagnostics.all (fun d => mild d.kind) && (x.listing.length == 2 && decide (x.listing.head? = some (.pragma 8)))) = some true := by
  decide +kernel

theorem row_wordCount : ∀ r ∈ langOps, (∀ a ∈ immediates r, ¬ (a.array = true ∨ a.name = b!"{bytes}")) →
    (rowWords r).length = (immediates r).length := by
  decide +kernel

/-- **C94** Every opcode of the language specification can be written, with as many operands as its row
has immediates, in a program of the version of the language specification. -/
theorem C94_written : ∀ r ∈ langOps, ∃ ws o res, (¬ ManyWords r → ws.length = (immediates r).length) ∧
    process sampleEnv (rowText r ws) = some res ∧ res.listing = [.pragma langVersion, o] ∧
    ∀ d ∈ res.diagnostics, (∃ w, d.kind = .lint w) ∨ ∃ m, d.kind = .mode m := by
  intro r hr
  have h := row_texts r hr
  obtain ⟨res, h1, h2⟩ := Option.map_eq_some_iff.1 h
  simp only [Bool.and_eq_true, beq_iff_eq, decide_eq_true_eq, List.all_eq_true] at h2
  obtain ⟨h2, h3, h4⟩ := h2
  obtain ⟨a, o, h5⟩ : ∃ a o, res.listing = [a, o] := by
    match res.listing, h3 with
    | [a, o], _ => exact ⟨a, o, rfl⟩
  rw [h5] at h4
  cases h4
  refine ⟨rowWords r, o, res, fun hm => row_wordCount r hr fun a ha hn => hm ⟨a, ha, hn⟩, h1, h5, fun d hd => ?_⟩
  have := h2 d hd
  cases hk : d.kind with
  | lint w => exact .inl ⟨w, rfl⟩
  | mode m => exact .inr ⟨m, rfl⟩
  | _ => rw [hk] at this; cases this

/-- **C94** (partial: for lines that are `Regular`, as C55.)  A line with an opcode of the language
specification that is read without complaint has as many operands as the row of the opcode has
immediates, unless there is a byte string or an array among them or it is one of the other forms. -/
theorem C94_operands_partial (env : Env) (src : Bytes) (res : ProcessResult) (h : process env src = some res)
    (r : LangOp) (hr : r ∈ langOps) (k : Nat) (t : Token) (rest : List Token) (ver : Nat)
    (hw : words (tokens src) k = t :: rest) (ht : t.v = r.name) (hv : VersionAt (tokens src) k ver)
    (hreg : Regular ver t.v (rest.map Token.v)) (hm : ¬ ManyWords r)
    (hok : ∀ d ∈ res.diagnostics, d.l = k → ∀ why, d.kind ≠ .parse why) :
    rest.length = (immediates r).length ∨ OtherForm r.name (rest.map Token.v) (immediates r).length := by
  have hn := row_plainName r hr
  obtain ⟨o, ho⟩ := (C55_operands_partial env src res h k t rest ver hw hv (by rw [ht]; exact hn.1) (by rw [ht]; exact hn.2) hreg).1.1 hok
  rw [ht] at ho
  rcases instr_row hr ho with h1 | h1 | h1
  · exact .inl (by simpa using h1)
  · exact .inr h1
  · exact absurd h1 hm

/-- **C94** (partial: for lines that are `Regular`, as C55.)  At the version of the language
specification, a line with an opcode for which the language specification lists fields, and with as many
operands as its row has immediates, is read without complaint exactly if the operand for the field is
one of the listed names or a number below 256, and the other operands are numbers below 256. -/
theorem C94_fields_partial (env : Env) (src : Bytes) (res : ProcessResult) (h : process env src = some res)
    (r : LangOp) (hr : r ∈ langOps) (hne : r.argEnum ≠ []) (k : Nat) (t : Token) (rest : List Token)
    (hw : words (tokens src) k = t :: rest) (ht : t.v = r.name) (hv : VersionAt (tokens src) k langVersion)
    (hreg : Regular langVersion t.v (rest.map Token.v)) (hl : rest.length = (immediates r).length)
    (x : Bytes) (hx : (rest.map Token.v)[fieldImmediate r]? = some x) :
    (∀ d ∈ res.diagnostics, d.l = k → ∀ why, d.kind ≠ .parse why) ↔
      (x ∈ r.argEnum ∨ ∃ n, IsByte x n) ∧ ∀ y ∈ (rest.map Token.v).eraseIdx (fieldImmediate r), ∃ n, IsByte y n := by
  have hn := row_plainName r hr
  rw [(C55_operands_partial env src res h k t rest langVersion hw hv (by rw [ht]; exact hn.1) (by rw [ht]; exact hn.2) hreg).1, ht]
  constructor
  · rintro ⟨o, ho⟩
    obtain ⟨x', hf⟩ := instr_field hr hne ho
    have : x' = x := Option.some.inj (hf.at_.symm.trans hx)
    subst this
    exact ⟨hf.name, hf.others⟩
  · rintro ⟨h1, h2⟩
    exact field_instr env.addrOk hr hne (by rw [List.length_map]; exact hl) hx h1 h2

/-- **C94** (partial: without the instructions the machine gets wrong, see C44, those for which the
stack depends on an immediate, and those of subroutines; fields by number must exist.)  An instruction
that was executed took from the stack what the row of its opcode lists under "Args" and left there what
the row lists under "Returns". -/
theorem C94_stack_partial {addrOk : Bytes → Bool} {ver : Nat} {r : LangOp} (hr : r ∈ langOps) (hd : r.name ∉ depthOps)
    (hf : r.name ∉ frameOps) {ws : List Bytes} {o : Op} (hi : Instr addrOk ver r.name ws o) (hex : ¬ (r.name = b!"extract" ∧ ws = []))
    {l : List Op} {version : Nat} {v w : Vm} (h : Session l version v) {k i : Nat}
    {b b' : VmBranch} (hs : Selected v k b i o) (hrange : OperandInRange o) (hw : ¬ WrongResults o)
    (hstep : v.step = some w) (hb' : w.branches[k]? = some b') (herr : w.error = none) (hx : b'.trace ≠ b.trace) :
    StackFits (letterTypes r.args) b.stack ∧
      ∃ vs, Results (letterTypes r.returns) vs ∧ b'.stack = vs ++ b.stack.drop r.args.length := by
  obtain ⟨args, rets, he⟩ := instr_effect hi hf
  obtain ⟨rfl, hfin⟩ := instr_agrees hr hd hi hex args rets he
  obtain ⟨h1, vs, h2, h3⟩ := C44_results_partial h hs he hrange hw (fun n hn => by subst hn; exact absurd rfl (not_depth hi hd).1)
    (fun n hn => by subst hn; exact absurd rfl (not_depth hi hd).2) hstep hb' herr hx
  exact ⟨h1, vs, results_finer hfin h2, by rw [h3, letterTypes, List.length_map]⟩

/-- **C94** (partial: without the instructions the machine gets wrong, see C44.)  The value of a field
that the language specification lists has, when the instruction was executed, the type that the language
specification gives for the field: the letter at the same place in "ArgEnumTypes".  The value is the
first of "Returns". -/
theorem C94_types_partial {addrOk : Bytes → Bool} {ver : Nat} {r : LangOp} (hr : r ∈ langOps) (hne : r.argEnum ≠ [])
    {ws : List Bytes} {o : Op} (hi : Instr addrOk ver r.name ws o) {x : Bytes} (hat : ws[fieldImmediate r]? = some x)
    {j : Nat} {c : UInt8} (hj : r.argEnum[j]? = some x) (hc : r.argEnumTypes[j]? = some c) (hret : r.returns ≠ [])
    {l : List Op} {version : Nat} {v w : Vm} (h : Session l version v) {k i : Nat}
    {b b' : VmBranch} (hs : Selected v k b i o) (hrange : OperandInRange o) (hw : ¬ WrongResults o)
    (hstep : v.step = some w) (hb' : w.branches[k]? = some b') (herr : w.error = none) (hx : b'.trace ≠ b.trace) :
    ∃ u, b'.stack[r.returns.length - 1]? = some u ∧ u.t = letterType c := by
  have hen := row_enumOps r hr hne
  have hout : ∀ w ∈ enumOps, w ∉ depthOps ∧ w ∉ frameOps ∧ w ≠ b!"extract" := by decide +kernel
  obtain ⟨hd, hf, hex⟩ := hout _ hen
  obtain ⟨args, rets, he⟩ := instr_effect hi hf
  obtain ⟨rfl, hfin⟩ := instr_agrees hr hd hi (fun hn => hex hn.1) args rets he
  obtain ⟨-, vs, h2, h3⟩ := C44_results_partial h hs he hrange hw (fun n hn => by subst hn; exact absurd rfl (not_depth hi hd).1)
    (fun n hn => by subst hn; exact absurd rfl (not_depth hi hd).2) hstep hb' herr hx
  obtain ⟨x', hfacts⟩ := instr_field hr hne hi
  have : x' = x := Option.some.inj (hfacts.at_.symm.trans hat)
  subst this
  have hlen : rets.length = r.returns.length := by rw [hfin.1, letterTypes, List.length_map]
  have hpos : 0 < r.returns.length := List.length_pos_of_ne_nil hret
  cases rets with
  | nil => simp at hlen; exact absurd hlen.symm (by omega)
  | cons t ts =>
    have ht := hfacts.type j c hj hc _ _ t he rfl
    have hv : r.returns.length - 1 < vs.length := by rw [h2.1, hlen]; omega
    refine ⟨vs[r.returns.length - 1], by rw [h3, List.getElem?_append_left hv, List.getElem?_eq_getElem hv], ?_⟩
    have hg := h2.2 (r.returns.length - 1) t vs[r.returns.length - 1] (by
      rw [List.getElem?_reverse' (j := 0) (by rw [hlen]; omega)]; rfl) (List.getElem?_eq_getElem hv)
    rw [← ht]
    rcases hg with hg | hg
    · have hc' : c = 85 ∨ c = 66 := by
        have hl : ∀ r ∈ langOps, ∀ c ∈ r.argEnumTypes, c = 85 ∨ c = 66 := by decide +kernel
        exact hl r hr c (List.mem_of_getElem? hc)
      rw [ht] at hg
      rcases hc' with rfl | rfl <;> cases hg
    · exact hg

/-- The row of `txna` with its operands: `txna Accounts 1`. -/
example : ∃ r ∈ langOps, r.name = b!"txna" ∧ r.argEnum ≠ [] ∧ ¬ ManyWords r ∧ (immediates r).length = 2 ∧ fieldImmediate r = 0 ∧
    Regular langVersion r.name [b!"Accounts", b!"1"] ∧
    words (tokens b!"#pragma version 8\ntxna Accounts 1") 1 ≠ [] ∧
    (process sampleEnv b!"#pragma version 8\ntxna Accounts 1").map (fun x => x.diagnostics) = some [] := by
  have h : ∃ r ∈ langOps, r.name = b!"txna" ∧ r.argEnum ≠ [] ∧ (∀ a ∈ immediates r, ¬ (a.array = true ∨ a.name = b!"{bytes}")) ∧
      (immediates r).length = 2 ∧ fieldImmediate r = 0 := by decide +kernel
  obtain ⟨r, hr, h1, h2, h3, h4, h5⟩ := h
  refine ⟨r, hr, h1, h2, fun ⟨a, ha, hb⟩ => h3 a ha hb, h4, h5, ?_, by decide +kernel, by decide +kernel⟩
  rw [h1]
  exact ⟨by decide, by decide +kernel, by decide +kernel, fun h => absurd h (by decide)⟩

/-- `txn Amount` pushes an integer: the letter at the place of `Amount` is `U`. -/
example : ∃ r ∈ langOps, r.name = b!"txn" ∧ r.argEnum[8]? = some b!"Amount" ∧ r.argEnumTypes[8]? = some 85 ∧ r.returns = b!"." ∧
    fieldImmediate r = 0 := by decide +kernel
example : outcome [.field .txn 8] 8 0 = some (.field .txn 8, false, [], [⟨.uint64, .none⟩]) := by decide +kernel
example : Instr (fun _ => true) 8 b!"txn" [b!"Amount"] (.field .txn 8) :=
  .txn _ _ _ _ (by decide) (.inl ⟨⟨b!"Amount", 0, false, some 5⟩, by decide +kernel, rfl, by decide⟩)

/-- **C94 is false of the code** in general: `itxna` leaves nothing although its row says that it leaves
a value. -/
theorem C94_false : ∃ r ∈ langOps, r.name = b!"itxna" ∧ r.returns = b!"." ∧
    Instr (fun _ => true) 8 b!"itxna" [b!"Logs", b!"0"] (.fieldIdx .itxna 58 0) ∧
    outcome [.fieldIdx .itxna 58 0] 8 0 = some (.fieldIdx .itxna 58 0, false, [], []) := by
  have h : ∃ r ∈ langOps, r.name = b!"itxna" ∧ r.returns = b!"." := by decide +kernel
  obtain ⟨r, hr, h1, h2⟩ := h
  refine ⟨r, hr, h1, h2, .arrayAt _ _ _ _ _ _ (by decide) (.inl ⟨⟨b!"Logs", 5, true, none⟩, by decide +kernel, rfl, rfl, by decide⟩)
    ((C11_uint8 _ _).1 (by decide)), by decide +kernel⟩

end Teal.Props
