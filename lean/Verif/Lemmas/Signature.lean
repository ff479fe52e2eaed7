import Verif.Spec.Signature
import Verif.Lemmas.WireOut
import Verif.Lemmas.ProcessLine
import Verif.Lemmas.Display

/-!
# Lemmas: signatures and snippets
-/

namespace Teal

open Spec

/-- An argument as the specification has it. -/
def DocArg.operand (a : DocArg) : Operand := ⟨a.name, a.type.text, a.array, a.optional⟩

/-- What a description says, without the name. -/
def key (o : Operand) : Bytes × Bool × Bool := (o.kind, o.list, o.optional)

/-- A description from what it says. -/
def ofKey (k : Bytes × Bool × Bool) : Operand := ⟨[], k.1, k.2.1, k.2.2⟩

/-- What the description of an opcode says. -/
def OpEntry.form (e : OpEntry) : List (Bytes × Bool × Bool) := e.docArgs.map fun a => (a.type.text, a.array, a.optional)

variable {addrOk : Bytes → Bool} {ver : Nat} {w : Bytes}

theorem complete_congr {os : List Operand} {ws : List Bytes} (h : Complete addrOk ver w os ws) :
    ∀ os' : List Operand, os.map key = os'.map key → Complete addrOk ver w os' ws := by
  induction h with
  | none => intro os' e; cases os' with
    | nil => exact .none
    | cons => simp at e
  | one o os ws ws' h hk hs ih =>
    intro os' e
    cases os' with
    | nil => simp at e
    | cons o' os' =>
      simp only [List.map_cons, List.cons.injEq, key, Prod.mk.injEq] at e
      exact .one o' os' ws ws' (e.1.2.1 ▸ h) (e.1.1 ▸ hk) (ih os' e.2)
  | many o ws vs h hs =>
    intro os' e
    cases os' with
    | nil => simp at e
    | cons o' os' =>
      simp only [List.map_cons, List.map_nil, List.cons.injEq, key, Prod.mk.injEq] at e
      obtain ⟨⟨e1, e2, e3⟩, e4⟩ := e
      cases os' with
      | cons => simp at e4
      | nil => exact .many o' ws vs (e2 ▸ h) (e1 ▸ hs)

theorem required_keys : ∀ os os' : List Operand, os.map key = os'.map key → (required os).map key = (required os').map key
  | [], [], _ => rfl
  | o :: os, o' :: os', e => by
    simp only [List.map_cons, List.cons.injEq] at e
    have ih := required_keys os os' e.2
    have ho : o.optional = o'.optional := congrArg (fun k => k.2.2) e.1
    simp only [required, List.takeWhile_cons] at ih ⊢
    rw [ho]
    split
    · rw [List.map_cons, List.map_cons, e.1, ih]
    · rfl
  | [], _ :: _, e => by simp at e
  | _ :: _, [], e => by simp at e

theorem described_congr {os os' : List Operand} {ws : List Bytes} (e : os.map key = os'.map key)
    (h : Described addrOk ver w os ws) : Described addrOk ver w os' ws := by
  rcases h with h | h
  · exact .inl (complete_congr h _ e)
  · exact .inr (complete_congr h _ (required_keys _ _ e))

theorem operand_keys (e : OpEntry) : (e.docArgs.map DocArg.operand).map key = (e.form.map ofKey).map key := by
  simp only [OpEntry.form, List.map_map]
  rfl

theorem described_iff (e : OpEntry) (ws : List Bytes) :
    Described addrOk ver w (e.docArgs.map DocArg.operand) ws ↔ Described addrOk ver w (e.form.map ofKey) ws :=
  ⟨described_congr (operand_keys e), described_congr (operand_keys e).symm⟩

/-- A required operand. -/
abbrev rq (k : Bytes) : Bytes × Bool × Bool := (k, false, false)

theorem complete_nil {ws : List Bytes} (h : Complete addrOk ver w [] ws) : ws = [] := by cases h; rfl

theorem complete_cons {o : Operand} {os : List Operand} {ws : List Bytes} (h : Complete addrOk ver w (o :: os) ws) (hl : o.list = false) :
    ∃ g ws', ws = g ++ ws' ∧ OfKind addrOk ver w o.kind g ∧ Complete addrOk ver w os ws' := by
  cases h with
  | one _ _ g ws' _ hk hs => exact ⟨g, ws', rfl, hk, hs⟩
  | many _ _ _ h => rw [hl] at h; cases h

theorem complete_one {o : Operand} {ws : List Bytes} (h : Complete addrOk ver w [o] ws) (hl : o.list = false) :
    OfKind addrOk ver w o.kind ws := by
  obtain ⟨g, ws', rfl, hk, hs⟩ := complete_cons h hl
  rw [complete_nil hs, List.append_nil]
  exact hk

theorem complete_many {o : Operand} {ws : List Bytes} (h : Complete addrOk ver w [o] ws) (hl : o.list = true) :
    ∃ vs, Several (fun g (_ : Unit) => OfKind addrOk ver w o.kind g) ws vs := by
  cases h with
  | one _ _ g ws' h => rw [hl] at h; cases h
  | many _ _ vs _ hs => exact ⟨vs, hs⟩

/-- Where no operand can be left out. -/
theorem described_complete {os : List Operand} {ws : List Bytes} (hr : required os = os) (h : Described addrOk ver w os ws) :
    Complete addrOk ver w os ws := by
  rcases h with h | h
  · exact h
  · rwa [hr] at h

/-- What the words of a kind are. -/
theorem ofKind_cases {k : Bytes} {g : List Bytes} (h : OfKind addrOk ver w k g) :
    (k = b!"uint8" ∧ ∃ x n, g = [x] ∧ IsByte x n) ∨ (k = b!"int8" ∧ ∃ x i, g = [x] ∧ IsSmall x i) ∨
    (k = b!"uint64" ∧ ∃ x n, g = [x] ∧ (IsUint x n ∨ w = b!"int" ∧ IsConst x n)) ∨ (k = b!"bytes" ∧ ∃ v, IsBytes g v) ∨
    (k = b!"label name" ∧ ∃ x, g = [x]) ∨ (k = b!"signature" ∧ ∃ s, g = [34 :: (s ++ [34])]) ∨
    (k = b!"address" ∧ ∃ x, g = [x] ∧ addrOk x = true) ∨ (k = b!"transaction field index" ∧ ∃ x f, g = [x] ∧ IsTxnField ver x f) ∨
    (k = b!"transaction array field index" ∧ ∃ x f, g = [x] ∧ IsArrayField ver x f) ∨
    (k = b!"internal transaction field index" ∧ ∃ x f, g = [x] ∧ IsInnerField ver x f) ∨
    (∃ names x f, (k, names) ∈ fieldKinds ∧ g = [x] ∧ IsField names ver x f) := by
  cases h with
  | byte x n h => exact .inl ⟨rfl, x, n, rfl, h⟩
  | small x n h => exact .inr (.inl ⟨rfl, x, n, rfl, h⟩)
  | uint x n h => exact .inr (.inr (.inl ⟨rfl, x, n, rfl, .inl h⟩))
  | const x n hw h => exact .inr (.inr (.inl ⟨rfl, x, n, rfl, .inr ⟨hw, h⟩⟩))
  | bytes ws v h => exact .inr (.inr (.inr (.inl ⟨rfl, v, h⟩)))
  | label x => exact .inr (.inr (.inr (.inr (.inl ⟨rfl, x, rfl⟩))))
  | signature s => exact .inr (.inr (.inr (.inr (.inr (.inl ⟨rfl, s, rfl⟩)))))
  | address x h => exact .inr (.inr (.inr (.inr (.inr (.inr (.inl ⟨rfl, x, rfl, h⟩))))))
  | txn x f h => exact .inr (.inr (.inr (.inr (.inr (.inr (.inr (.inl ⟨rfl, x, f, rfl, h⟩)))))))
  | array x f h => exact .inr (.inr (.inr (.inr (.inr (.inr (.inr (.inr (.inl ⟨rfl, x, f, rfl, h⟩))))))))
  | inner x f h => exact .inr (.inr (.inr (.inr (.inr (.inr (.inr (.inr (.inr (.inl ⟨rfl, x, f, rfl, h⟩)))))))))
  | field k names x f hk h => exact .inr (.inr (.inr (.inr (.inr (.inr (.inr (.inr (.inr (.inr ⟨names, x, f, hk, rfl, h⟩)))))))))

/-- The kinds that are no fields. -/
def basicKinds : List Bytes :=
  [b!"uint8", b!"int8", b!"uint64", b!"bytes", b!"label name", b!"signature", b!"address", b!"transaction field index",
   b!"transaction array field index", b!"internal transaction field index"]

theorem basic_apart : ∀ k ∈ basicKinds, ∀ p ∈ fieldKinds, p.1 ≠ k := by decide +kernel

theorem basic_none {k : Bytes} {names : List DocField} (h : k ∈ basicKinds) (hk : (k, names) ∈ fieldKinds) : False :=
  basic_apart k h _ hk rfl

/-- The case of a kind that is no field. -/
macro "kind_case" : tactic => `(tactic| (
  intro h0
  rcases ofKind_cases h0 with ⟨e, h⟩ | ⟨e, h⟩ | ⟨e, h⟩ | ⟨e, h⟩ | ⟨e, h⟩ | ⟨e, h⟩ | ⟨e, h⟩ | ⟨e, h⟩ | ⟨e, h⟩ | ⟨e, h⟩ | ⟨names, x, f, hk, _, _⟩ <;>
    first
    | exact absurd e (by decide)
    | exact (basic_none (by decide) hk).elim
    | assumption))

theorem kind_byte {g : List Bytes} : OfKind addrOk ver w b!"uint8" g → ∃ x n, g = [x] ∧ IsByte x n := by kind_case
theorem kind_small {g : List Bytes} : OfKind addrOk ver w b!"int8" g → ∃ x i, g = [x] ∧ IsSmall x i := by kind_case
theorem kind_uint {g : List Bytes} : OfKind addrOk ver w b!"uint64" g → ∃ x n, g = [x] ∧ (IsUint x n ∨ w = b!"int" ∧ IsConst x n) := by kind_case
theorem kind_bytes {g : List Bytes} : OfKind addrOk ver w b!"bytes" g → ∃ v, IsBytes g v := by kind_case
theorem kind_label {g : List Bytes} : OfKind addrOk ver w b!"label name" g → ∃ x, g = [x] := by kind_case
theorem kind_signature {g : List Bytes} : OfKind addrOk ver w b!"signature" g → ∃ s, g = [34 :: (s ++ [34])] := by kind_case
theorem kind_address {g : List Bytes} : OfKind addrOk ver w b!"address" g → ∃ x, g = [x] ∧ addrOk x = true := by kind_case
theorem kind_txn {g : List Bytes} : OfKind addrOk ver w b!"transaction field index" g → ∃ x f, g = [x] ∧ IsTxnField ver x f := by kind_case
theorem kind_array {g : List Bytes} : OfKind addrOk ver w b!"transaction array field index" g → ∃ x f, g = [x] ∧ IsArrayField ver x f := by kind_case
theorem kind_inner {g : List Bytes} : OfKind addrOk ver w b!"internal transaction field index" g → ∃ x f, g = [x] ∧ IsInnerField ver x f := by kind_case

theorem fieldKinds_unique : ∀ p ∈ fieldKinds, ∀ q ∈ fieldKinds, p.1 = q.1 → p.2 = q.2 := by decide +kernel

theorem kind_field {g : List Bytes} {k : Bytes} {names : List DocField} (hk : (k, names) ∈ fieldKinds) :
    OfKind addrOk ver w k g → ∃ x f, g = [x] ∧ IsField names ver x f := by
  intro h0
  have ap : ∀ b ∈ basicKinds, k ≠ b := fun b hb => basic_apart b hb _ hk
  rcases ofKind_cases h0 with ⟨e, h⟩ | ⟨e, h⟩ | ⟨e, h⟩ | ⟨e, h⟩ | ⟨e, h⟩ | ⟨e, h⟩ | ⟨e, h⟩ | ⟨e, h⟩ | ⟨e, h⟩ | ⟨e, h⟩ | ⟨names', x, f, hk', hg, hf⟩
  all_goals first
    | exact absurd e (ap _ (by decide))
    | (obtain rfl : names' = names := fieldKinds_unique _ hk' _ hk rfl
       exact ⟨x, f, hg, hf⟩)

/-! ## The tables -/

theorem form_plain : ∀ p ∈ plainOps, (opsGet p.1).map OpEntry.form = some [] := by decide +kernel

theorem form_byte : ∀ p ∈ byteOps, (opsGet p.1).map OpEntry.form = some [rq b!"uint8"] ∨
    (p.1 = b!"replace" ∧ (opsGet p.1).map OpEntry.form = some [(b!"uint8", false, true)]) := by decide +kernel

theorem form_byteByte : ∀ p ∈ byteByteOps, (opsGet p.1).map OpEntry.form = some [rq b!"uint8", rq b!"uint8"] ∨
    (p.1 = b!"extract" ∧ (opsGet p.1).map OpEntry.form = some [(b!"uint8", false, true), (b!"uint8", false, true)]) := by decide +kernel

theorem form_field : ∀ p ∈ fieldOps, ∃ q ∈ fieldKinds, q.2 = p.2.1 ∧ (opsGet p.1).map OpEntry.form = some [rq q.1] := by decide +kernel

abbrev tf : Bytes := b!"transaction field index"
abbrev taf : Bytes := b!"transaction array field index"
abbrev itf : Bytes := b!"internal transaction field index"

theorem form_rest :
    (opsGet b!"replace").map OpEntry.form = some [(b!"uint8", false, true)] ∧
    (opsGet b!"extract").map OpEntry.form = some [(b!"uint8", false, true), (b!"uint8", false, true)] ∧
    (∀ x ∈ [b!"frame_dig", b!"frame_bury"], (opsGet x).map OpEntry.form = some [rq b!"int8"]) ∧
    (∀ x ∈ [b!"txn", b!"gtxns"], (opsGet x).map OpEntry.form = some [rq tf, (b!"uint8", false, true)]) ∧
    (opsGet b!"itxn").map OpEntry.form = some [rq tf] ∧
    (opsGet b!"itxn_field").map OpEntry.form = some [rq itf] ∧
    (∀ x ∈ [b!"txnas", b!"gtxnsas", b!"itxnas"], (opsGet x).map OpEntry.form = some [rq taf]) ∧
    (∀ x ∈ [b!"txna", b!"gtxnsa", b!"itxna"], (opsGet x).map OpEntry.form = some [rq taf, rq b!"uint8"]) ∧
    (opsGet b!"gtxn").map OpEntry.form = some [rq b!"uint8", rq tf, (b!"uint8", false, true)] ∧
    (opsGet b!"gitxn").map OpEntry.form = some [rq b!"uint8", rq tf] ∧
    (∀ x ∈ [b!"gtxnas", b!"gitxnas"], (opsGet x).map OpEntry.form = some [rq b!"uint8", rq taf]) ∧
    (opsGet b!"gtxna").map OpEntry.form = some [rq b!"uint8", rq taf, rq b!"uint8"] ∧
    (∀ x ∈ [b!"int", b!"pushint"], (opsGet x).map OpEntry.form = some [rq b!"uint64"]) ∧
    (∀ x ∈ [b!"intcblock", b!"pushints"], (opsGet x).map OpEntry.form = some [(b!"uint64", true, false)]) ∧
    (∀ x ∈ [b!"byte", b!"pushbytes"], (opsGet x).map OpEntry.form = some [rq b!"bytes"]) ∧
    (∀ x ∈ [b!"bytecblock", b!"pushbytess"], (opsGet x).map OpEntry.form = some [(b!"bytes", true, false)]) ∧
    (opsGet b!"addr").map OpEntry.form = some [rq b!"address"] ∧
    (opsGet b!"method").map OpEntry.form = some [rq b!"signature"] ∧
    (∀ x ∈ [b!"bnz", b!"bz", b!"b", b!"callsub"], (opsGet x).map OpEntry.form = some [rq b!"label name"]) ∧
    (∀ x ∈ [b!"switch", b!"match"], (opsGet x).map OpEntry.form = some [(b!"label name", true, false)]) := by
  refine ⟨?_, ?_, ?_, ?_, ?_, ?_, ?_, ?_, ?_, ?_, ?_, ?_, ?_, ?_, ?_, ?_, ?_, ?_, ?_, ?_⟩ <;> decide +kernel

/-- Every opcode is in one of the tables. -/
theorem op_tables : ∀ e ∈ opsList, e.name = b!"gitxna" ∨ (∃ p ∈ plainOps, p.1 = e.name) ∨ (∃ p ∈ byteOps, p.1 = e.name) ∨
    (∃ p ∈ byteByteOps, p.1 = e.name) ∨ (∃ p ∈ fieldOps, p.1 = e.name) ∨
    e.name ∈ [b!"frame_dig", b!"frame_bury", b!"txn", b!"gtxns", b!"itxn", b!"itxn_field", b!"txnas", b!"gtxnsas", b!"itxnas",
      b!"txna", b!"gtxnsa", b!"itxna", b!"gtxn", b!"gitxn", b!"gtxnas", b!"gitxnas", b!"gtxna", b!"int", b!"pushint",
      b!"intcblock", b!"pushints", b!"byte", b!"pushbytes", b!"bytecblock", b!"pushbytess", b!"addr", b!"method",
      b!"bnz", b!"bz", b!"b", b!"callsub", b!"switch", b!"match"] := by decide +kernel

theorem several_mono {α β : Type} {P : List Bytes → α → Prop} {Q : List Bytes → β → Prop} {f : α → β} {ws : List Bytes} {vs : List α}
    (h : Several P ws vs) (hpq : ∀ g v, P g v → Q g (f v)) : Several Q ws (vs.map f) := by
  induction h with
  | nil => exact .nil
  | cons g ws' v vs h _ ih => exact .cons g ws' _ _ (hpq g v h) ih

theorem several_exists {α : Type} {P : List Bytes → α → Prop} {ws : List Bytes} {us : List Unit}
    (h : Several (fun g (_ : Unit) => ∃ v, P g v) ws us) : ∃ vs, Several P ws vs := by
  induction h with
  | nil => exact ⟨[], .nil⟩
  | cons g ws' v vs h _ ih =>
    obtain ⟨x, hx⟩ := h
    obtain ⟨xs, hxs⟩ := ih
    exact ⟨x :: xs, .cons g ws' _ _ hx hxs⟩

theorem several_labels : ∀ ls : List Bytes, Several (fun g (_ : Unit) => OfKind addrOk ver w b!"label name" g) ls (ls.map fun _ => ())
  | [] => .nil
  | l :: ls => .cons [l] ls () _ (.label l) (several_labels ls)

theorem txn_of_array {x : Bytes} {f : Nat} (h : IsArrayField ver x f) : IsTxnField ver x f := by
  rcases h with ⟨d, h1, h2, h3⟩ | h
  · exact .inl ⟨d, h1, h2, h3.2⟩
  · exact .inr h

theorem array_of_txn {x : Bytes} {f : Nat} (h : IsTxnField ver x f) (ha : ∀ d ∈ txnFields, d.name = x → d.array = true) :
    IsArrayField ver x f := by
  rcases h with ⟨d, h1, h2, h3⟩ | h
  · exact .inl ⟨d, h1, h2, ha d (List.mem_of_getElem? h1) h2, h3⟩
  · exact .inr h

/-- The words of an instruction are as the description of its operands has it. -/
theorem instr_described {e : OpEntry} {ws : List Bytes} {o : Op} (he : opsGet w = some e) (hw : w ≠ b!"gitxna")
    (h : Instr addrOk ver w ws o) : Described addrOk ver w (e.docArgs.map DocArg.operand) ws := by
  rw [described_iff]
  obtain ⟨r1, r2, r3, r4, r5, r6, r7, r8, r9, r10, r11, r12, r13, r14, r15, r16, r17, r18, r19, r20⟩ := form_rest
  have key : ∀ {w' : Bytes} {fs : List (Bytes × Bool × Bool)}, w' = w → (opsGet w').map OpEntry.form = some fs → e.form = fs := by
    rintro w' fs rfl h
    rw [he] at h
    exact Option.some.inj h
  have one : ∀ {o : Operand} {os : List Operand} {x : Bytes} {xs : List Bytes}, o.list = false → OfKind addrOk ver w o.kind [x] →
      Complete addrOk ver w os xs → Complete addrOk ver w (o :: os) (x :: xs) := fun a b c => .one _ _ [_] _ a b c
  cases h with
  | plain _ k h => rw [key rfl (form_plain _ h)]; exact .inl .none
  | replace3 => rw [key rfl r1]; exact .inr .none
  | extract3 => rw [key rfl r2]; exact .inr .none
  | byteOp _ x k n h hx =>
    rcases form_byte _ h with h | ⟨_, h⟩ <;> rw [key rfl h] <;> exact .inl (one rfl (.byte x n hx) .none)
  | byteByteOp _ x y k m n h hx hy =>
    rcases form_byteByte _ h with h | ⟨_, h⟩ <;> rw [key rfl h] <;> exact .inl (one rfl (.byte x m hx) (one rfl (.byte y n hy) .none))
  | smallOp _ x k i h hx => 
    have hm : w ∈ [b!"frame_dig", b!"frame_bury"] := List.mem_map_of_mem (f := Prod.fst) h
    rw [key rfl (r3 _ hm)]; exact .inl (one rfl (.small x i hx) .none)
  | fieldOp _ x names k i h hx =>
    obtain ⟨q, hq, e1, h⟩ := form_field _ h
    rw [key rfl h]
    exact .inl (one rfl (.field _ names x i (by dsimp only at e1; rw [← e1]; exact hq) hx) .none)
  | txn _ x k f h hx =>
    have hm : w ∈ [b!"txn", b!"gtxns", b!"itxn"] := List.mem_map_of_mem (f := Prod.fst) h
    by_cases hi : w = b!"itxn"
    · rw [key hi.symm r5]; exact .inl (one rfl (.txn x f hx) .none)
    · have hm' : w ∈ [b!"txn", b!"gtxns"] := by
        simp only [List.mem_cons, List.not_mem_nil, or_false] at hm ⊢
        rcases hm with h | h | h
        · exact .inl h
        · exact .inr h
        · exact absurd h hi
      rw [key rfl (r4 _ hm')]; exact .inr (one rfl (.txn x f hx) .none)
  | txnAt _ x y k f i h hx hy =>
    have hm : w ∈ [b!"txn", b!"gtxns"] := List.mem_map_of_mem (f := Prod.fst) h
    rw [key rfl (r4 _ hm)]
    exact .inl (one rfl (.txn x f (txn_of_array hx)) (one rfl (.byte y i hy) .none))
  | inner x f hx => rw [key rfl r6]; exact .inl (one rfl (.inner x f hx) .none)
  | array _ x k f h hx =>
    have hm : w ∈ [b!"txnas", b!"gtxnsas", b!"itxnas"] := List.mem_map_of_mem (f := Prod.fst) h
    rw [key rfl (r7 _ hm)]; exact .inl (one rfl (.array x f hx) .none)
  | arrayAt _ x y k f i h hx hy =>
    have hm : w ∈ [b!"txna", b!"gtxnsa", b!"itxna"] := List.mem_map_of_mem (f := Prod.fst) h
    rw [key rfl (r8 _ hm)]; exact .inl (one rfl (.array x f hx) (one rfl (.byte y i hy) .none))
  | group _ x y k t f h hx hy =>
    have hm : w ∈ [b!"gtxn", b!"gitxn"] := List.mem_map_of_mem (f := Prod.fst) h
    simp only [List.mem_cons, List.not_mem_nil, or_false] at hm
    rcases hm with hm | hm
    · rw [key hm.symm r9]; exact .inr (one rfl (.byte x t hx) (one rfl (.txn y f hy) .none))
    · rw [key hm.symm r10]; exact .inl (one rfl (.byte x t hx) (one rfl (.txn y f hy) .none))
  | groupArray _ x y k t f h hx hy =>
    have hm : w ∈ [b!"gtxnas", b!"gitxnas"] := List.mem_map_of_mem (f := Prod.fst) h
    rw [key rfl (r11 _ hm)]; exact .inl (one rfl (.byte x t hx) (one rfl (.array y f hy) .none))
  | groupAt x y z t f i hx hy hz =>
    rw [key rfl r9]; exact .inl (one rfl (.byte x t hx) (one rfl (.txn y f (txn_of_array hy)) (one rfl (.byte z i hz) .none)))
  | groupArrayAt _ x y z k t f i h hx hy hz =>
    have hm : w ∈ [b!"gtxna", b!"gitxna"] := List.mem_map_of_mem (f := Prod.fst) h
    simp only [List.mem_cons, List.not_mem_nil, or_false] at hm
    rcases hm with hm | hm
    · rw [key hm.symm r12]; exact .inl (one rfl (.byte x t hx) (one rfl (.array y f hy) (one rfl (.byte z i hz) .none)))
    · exact absurd hm hw
  | int x n hx =>
    rw [key rfl (r13 _ (by decide))]; exact .inl (one rfl (.const x n rfl hx) .none)
  | pushint x n hx =>
    rw [key rfl (r13 _ (by decide))]; exact .inl (one rfl (.uint x n hx) .none)
  | intcblock _ vs h =>
    rw [key rfl (r14 _ (by decide))]
    exact .inl (.many _ _ (vs.map fun _ => ()) rfl (several_mono h (by rintro g v ⟨x, rfl, hx⟩; exact .uint x v hx)))
  | pushints _ vs h =>
    rw [key rfl (r14 _ (by decide))]
    exact .inl (.many _ _ (vs.map fun _ => ()) rfl (several_mono h (by rintro g v ⟨x, rfl, hx⟩; exact .uint x v hx)))
  | byte _ v h => rw [key rfl (r15 _ (by decide))]; exact .inl (List.append_nil ws ▸ .one _ _ ws [] rfl (.bytes ws v h) .none)
  | pushbytes _ v h => rw [key rfl (r15 _ (by decide))]; exact .inl (List.append_nil ws ▸ .one _ _ ws [] rfl (.bytes ws v h) .none)
  | bytecblock _ vs h =>
    rw [key rfl (r16 _ (by decide))]
    exact .inl (.many _ _ (vs.map fun _ => ()) rfl (several_mono h (fun g v h => .bytes g v h)))
  | pushbytess _ vs h =>
    rw [key rfl (r16 _ (by decide))]
    exact .inl (.many _ _ (vs.map fun _ => ()) rfl (several_mono h (fun g v h => .bytes g v h)))
  | addr x h => rw [key rfl r17]; exact .inl (one rfl (.address x h) .none)
  | method s => rw [key rfl r18]; exact .inl (one rfl (.signature s) .none)
  | branch _ l k h =>
    have hm : w ∈ [b!"bnz", b!"bz", b!"b", b!"callsub"] := List.mem_map_of_mem (f := Prod.fst) h
    rw [key rfl (r19 _ hm)]; exact .inl (one rfl (.label l) .none)
  | switch =>
    rw [key rfl (r20 _ (by decide))]
    exact .inl (.many _ _ (ws.map fun _ => ()) rfl (several_labels ws))
  | match_ =>
    rw [key rfl (r20 _ (by decide))]
    exact .inl (.many _ _ (ws.map fun _ => ()) rfl (several_labels ws))

/-- The words that are as the description has it are the words of an instruction. -/
theorem described_instr {e : OpEntry} {ws : List Bytes} (he : opsGet w = some e) (hw : w ≠ b!"gitxna")
    (hi : w ∈ [b!"txn", b!"gtxns", b!"gtxn"] → ws.length = e.docArgs.length → ∀ x ∈ ws, ∀ d ∈ txnFields, d.name = x → d.array = true)
    (h : Described addrOk ver w (e.docArgs.map DocArg.operand) ws) : ∃ o, Instr addrOk ver w ws o := by
  rw [described_iff] at h
  have hlen : e.form.length = e.docArgs.length := by simp [OpEntry.form]
  rw [← hlen] at hi
  obtain ⟨r1, r2, r3, r4, r5, r6, r7, r8, r9, r10, r11, r12, r13, r14, r15, r16, r17, r18, r19, r20⟩ := form_rest
  have key : ∀ {w' : Bytes} {fs : List (Bytes × Bool × Bool)}, w' = w → (opsGet w').map OpEntry.form = some fs → e.form = fs := by
    rintro w' fs rfl h
    rw [he] at h
    exact Option.some.inj h
  obtain ⟨hmem, hname⟩ := opsGet_mem he
  rcases op_tables e hmem with hx | ⟨p, hp, hx⟩ | ⟨p, hp, hx⟩ | ⟨p, hp, hx⟩ | ⟨p, hp, hx⟩ | hx
  · exact absurd (hname.symm.trans hx) hw
  · rw [hname] at hx
    subst hx
    rw [key rfl (form_plain _ hp)] at h
    cases complete_nil (described_complete rfl h)
    exact ⟨_, .plain _ _ hp⟩
  · rw [hname] at hx
    subst hx
    rcases form_byte _ hp with hf | ⟨hr, hf⟩ <;> rw [key rfl hf] at h
    · obtain ⟨x, n, rfl, hx⟩ := kind_byte (complete_one (described_complete rfl h) rfl)
      exact ⟨_, .byteOp _ x _ n hp hx⟩
    · rcases h with h | h
      · obtain ⟨x, n, rfl, hx⟩ := kind_byte (complete_one h rfl)
        exact ⟨_, .byteOp _ x _ n hp hx⟩
      · cases complete_nil h
        rw [hr]
        exact ⟨_, .replace3⟩
  · rw [hname] at hx
    subst hx
    rcases form_byteByte _ hp with hf | ⟨hr, hf⟩ <;> rw [key rfl hf] at h
    · obtain ⟨g, ws', rfl, hk, hs⟩ := complete_cons (described_complete rfl h) rfl
      obtain ⟨x, m, rfl, hx⟩ := kind_byte hk
      obtain ⟨y, n, rfl, hy⟩ := kind_byte (complete_one hs rfl)
      exact ⟨_, .byteByteOp _ x y _ m n hp hx hy⟩
    · rcases h with h | h
      · obtain ⟨g, ws', rfl, hk, hs⟩ := complete_cons h rfl
        obtain ⟨x, m, rfl, hx⟩ := kind_byte hk
        obtain ⟨y, n, rfl, hy⟩ := kind_byte (complete_one hs rfl)
        exact ⟨_, .byteByteOp _ x y _ m n hp hx hy⟩
      · cases complete_nil h
        rw [hr]
        exact ⟨_, .extract3⟩
  · rw [hname] at hx
    subst hx
    obtain ⟨q, hq, e1, hf⟩ := form_field _ hp
    rw [key rfl hf] at h
    obtain ⟨x, f, rfl, hx⟩ := kind_field (k := q.1) (names := q.2) hq (complete_one (described_complete rfl h) rfl)
    rw [e1] at hx
    exact ⟨_, .fieldOp _ x _ _ f hp hx⟩
  · rw [hname] at hx
    have small : ∀ k, (w, k) ∈ [(b!"frame_dig", I8Op.frameDig), (b!"frame_bury", .frameBury)] → ∃ o, Instr addrOk ver w ws o := by
      intro k hk
      have hm : w ∈ [b!"frame_dig", b!"frame_bury"] := List.mem_map_of_mem (f := Prod.fst) hk
      rw [key rfl (r3 _ hm)] at h
      obtain ⟨x, i, rfl, hx⟩ := kind_small (complete_one (described_complete rfl h) rfl)
      exact ⟨_, .smallOp _ x k i hk hx⟩
    have txn : ∀ k, (w, k) ∈ [(b!"txn", FieldOp.txn), (b!"gtxns", .gtxns), (b!"itxn", .itxn)] → w ∈ [b!"txn", b!"gtxns"] →
        ∃ o, Instr addrOk ver w ws o := by
      intro k hk hm
      have hl := hi (by simp only [List.mem_cons, List.not_mem_nil, or_false] at hm ⊢; rcases hm with h | h <;> simp [h])
      rw [key rfl (r4 _ hm)] at h hl
      rcases h with h | h
      · obtain ⟨g, ws', rfl, hk1, hs⟩ := complete_cons h rfl
        obtain ⟨x, f, rfl, hx⟩ := kind_txn hk1
        obtain ⟨y, n, rfl, hy⟩ := kind_byte (complete_one hs rfl)
        have hx' := array_of_txn hx (hl rfl x (by simp))
        simp only [List.mem_cons, List.not_mem_nil, or_false] at hm
        rcases hm with hm | hm <;> subst hm
        · exact ⟨_, .txnAt _ x y .txna f n (by decide) hx' hy⟩
        · exact ⟨_, .txnAt _ x y .gtxnsa f n (by decide) hx' hy⟩
      · obtain ⟨x, f, rfl, hx⟩ := kind_txn (complete_one h rfl)
        exact ⟨_, .txn _ x k f hk hx⟩
    have array : ∀ k, (w, k) ∈ [(b!"txnas", FieldOp.txnas), (b!"gtxnsas", .gtxnsas), (b!"itxnas", .itxnas)] → ∃ o, Instr addrOk ver w ws o := by
      intro k hk
      have hm : w ∈ [b!"txnas", b!"gtxnsas", b!"itxnas"] := List.mem_map_of_mem (f := Prod.fst) hk
      rw [key rfl (r7 _ hm)] at h
      obtain ⟨x, f, rfl, hx⟩ := kind_array (complete_one (described_complete rfl h) rfl)
      exact ⟨_, .array _ x k f hk hx⟩
    have arrayAt : ∀ k, (w, k) ∈ [(b!"txna", FieldIdxOp.txna), (b!"gtxnsa", .gtxnsa), (b!"itxna", .itxna)] → ∃ o, Instr addrOk ver w ws o := by
      intro k hk
      have hm : w ∈ [b!"txna", b!"gtxnsa", b!"itxna"] := List.mem_map_of_mem (f := Prod.fst) hk
      rw [key rfl (r8 _ hm)] at h
      obtain ⟨g, ws', rfl, hk1, hs⟩ := complete_cons (described_complete rfl h) rfl
      obtain ⟨x, f, rfl, hx⟩ := kind_array hk1
      obtain ⟨y, n, rfl, hy⟩ := kind_byte (complete_one hs rfl)
      exact ⟨_, .arrayAt _ x y k f n hk hx hy⟩
    have groupArray : ∀ k, (w, k) ∈ [(b!"gtxnas", GroupFieldOp.gtxnas), (b!"gitxnas", .gitxnas)] → ∃ o, Instr addrOk ver w ws o := by
      intro k hk
      have hm : w ∈ [b!"gtxnas", b!"gitxnas"] := List.mem_map_of_mem (f := Prod.fst) hk
      rw [key rfl (r11 _ hm)] at h
      obtain ⟨g, ws', rfl, hk1, hs⟩ := complete_cons (described_complete rfl h) rfl
      obtain ⟨x, n, rfl, hx⟩ := kind_byte hk1
      obtain ⟨y, f, rfl, hy⟩ := kind_array (complete_one hs rfl)
      exact ⟨_, .groupArray _ x y k n f hk hx hy⟩
    have branch : ∀ k, (w, k) ∈ [(b!"bnz", BranchOp.bnz), (b!"bz", .bz), (b!"b", .b), (b!"callsub", .callsub)] → ∃ o, Instr addrOk ver w ws o := by
      intro k hk
      have hm : w ∈ [b!"bnz", b!"bz", b!"b", b!"callsub"] := List.mem_map_of_mem (f := Prod.fst) hk
      rw [key rfl (r19 _ hm)] at h
      obtain ⟨x, rfl⟩ := kind_label (complete_one (described_complete rfl h) rfl)
      exact ⟨_, .branch _ x k hk⟩
    have uints : w ∈ [b!"intcblock", b!"pushints"] → ∃ vs, Several (Single IsUint) ws vs := by
      intro hm
      rw [key rfl (r14 _ hm)] at h
      obtain ⟨us, hs⟩ := complete_many (described_complete rfl h) rfl
      apply several_exists
      have := several_mono (f := id) (Q := fun g (_ : Unit) => ∃ v, Single IsUint g v) hs (by
        intro g _ hg
        obtain ⟨x, n, rfl, hx | ⟨hw, _⟩⟩ := kind_uint hg
        · exact ⟨n, x, rfl, hx⟩
        · rw [hw] at hm; exact absurd hm (by decide))
      exact this
    have bytess : w ∈ [b!"bytecblock", b!"pushbytess"] → ∃ vs, Several IsBytes ws vs := by
      intro hm
      rw [key rfl (r16 _ hm)] at h
      obtain ⟨us, hs⟩ := complete_many (described_complete rfl h) rfl
      exact several_exists (several_mono (f := id) (Q := fun g (_ : Unit) => ∃ v, IsBytes g v) hs fun g _ hg => kind_bytes hg)
    simp only [List.mem_cons, List.not_mem_nil, or_false] at hx
    rcases hx with hx | hx | hx | hx | hx | hx | hx | hx | hx | hx | hx | hx | hx | hx | hx | hx | hx | hx | hx | hx | hx | hx | hx | hx | hx |
      hx | hx | hx | hx | hx | hx | hx | hx <;> subst hx
    · exact small .frameDig (by decide)
    · exact small .frameBury (by decide)
    · exact txn .txn (by decide) (by decide)
    · exact txn .gtxns (by decide) (by decide)
    · rw [key rfl r5] at h
      obtain ⟨x, f, rfl, hx⟩ := kind_txn (complete_one (described_complete rfl h) rfl)
      exact ⟨_, .txn _ x .itxn f (by decide) hx⟩
    · rw [key rfl r6] at h
      obtain ⟨x, f, rfl, hx⟩ := kind_inner (complete_one (described_complete rfl h) rfl)
      exact ⟨_, .inner x f hx⟩
    · exact array .txnas (by decide)
    · exact array .gtxnsas (by decide)
    · exact array .itxnas (by decide)
    · exact arrayAt .txna (by decide)
    · exact arrayAt .gtxnsa (by decide)
    · exact arrayAt .itxna (by decide)
    · have hl := hi (by decide)
      rw [key rfl r9] at h hl
      rcases h with h | h
      · obtain ⟨g, ws', rfl, hk1, hs⟩ := complete_cons h rfl
        obtain ⟨x, n, rfl, hx⟩ := kind_byte hk1
        obtain ⟨g, ws', rfl, hk1, hs'⟩ := complete_cons hs rfl
        obtain ⟨y, f, rfl, hy⟩ := kind_txn hk1
        obtain ⟨z, i, rfl, hz⟩ := kind_byte (complete_one hs' rfl)
        exact ⟨_, .groupAt x y z n f i hx (array_of_txn hy (hl rfl y (by simp))) hz⟩
      · obtain ⟨g, ws', rfl, hk1, hs⟩ := complete_cons h rfl
        obtain ⟨x, n, rfl, hx⟩ := kind_byte hk1
        obtain ⟨y, f, rfl, hy⟩ := kind_txn (complete_one hs rfl)
        exact ⟨_, .group _ x y .gtxn n f (by decide) hx hy⟩
    · rw [key rfl r10] at h
      obtain ⟨g, ws', rfl, hk1, hs⟩ := complete_cons (described_complete rfl h) rfl
      obtain ⟨x, n, rfl, hx⟩ := kind_byte hk1
      obtain ⟨y, f, rfl, hy⟩ := kind_txn (complete_one hs rfl)
      exact ⟨_, .group _ x y .gitxn n f (by decide) hx hy⟩
    · exact groupArray .gtxnas (by decide)
    · exact groupArray .gitxnas (by decide)
    · rw [key rfl r12] at h
      obtain ⟨g, ws', rfl, hk1, hs⟩ := complete_cons (described_complete rfl h) rfl
      obtain ⟨x, n, rfl, hx⟩ := kind_byte hk1
      obtain ⟨g, ws', rfl, hk1, hs'⟩ := complete_cons hs rfl
      obtain ⟨y, f, rfl, hy⟩ := kind_array hk1
      obtain ⟨z, i, rfl, hz⟩ := kind_byte (complete_one hs' rfl)
      exact ⟨_, .groupArrayAt _ x y z .gtxna n f i (by decide) hx hy hz⟩
    · rw [key rfl (r13 _ (by decide))] at h
      obtain ⟨x, n, rfl, hx | ⟨_, hx⟩⟩ := kind_uint (complete_one (described_complete rfl h) rfl)
      · exact ⟨_, .int x n (.inr hx)⟩
      · exact ⟨_, .int x n hx⟩
    · rw [key rfl (r13 _ (by decide))] at h
      obtain ⟨x, n, rfl, hx | ⟨hx, _⟩⟩ := kind_uint (complete_one (described_complete rfl h) rfl)
      · exact ⟨_, .pushint x n hx⟩
      · exact absurd hx (by decide)
    · obtain ⟨vs, hs⟩ := uints (by decide); exact ⟨_, .intcblock ws vs hs⟩
    · obtain ⟨vs, hs⟩ := uints (by decide); exact ⟨_, .pushints ws vs hs⟩
    · rw [key rfl (r15 _ (by decide))] at h
      obtain ⟨v, hv⟩ := kind_bytes (complete_one (described_complete rfl h) rfl)
      exact ⟨_, .byte ws v hv⟩
    · rw [key rfl (r15 _ (by decide))] at h
      obtain ⟨v, hv⟩ := kind_bytes (complete_one (described_complete rfl h) rfl)
      exact ⟨_, .pushbytes ws v hv⟩
    · obtain ⟨vs, hs⟩ := bytess (by decide); exact ⟨_, .bytecblock ws vs hs⟩
    · obtain ⟨vs, hs⟩ := bytess (by decide); exact ⟨_, .pushbytess ws vs hs⟩
    · rw [key rfl r17] at h
      obtain ⟨x, rfl, hx⟩ := kind_address (complete_one (described_complete rfl h) rfl)
      exact ⟨_, .addr x hx⟩
    · rw [key rfl r18] at h
      obtain ⟨s, rfl⟩ := kind_signature (complete_one (described_complete rfl h) rfl)
      exact ⟨_, .method s⟩
    · exact branch .bnz (by decide)
    · exact branch .bz (by decide)
    · exact branch .b (by decide)
    · exact branch .callsub (by decide)
    · exact ⟨_, .switch ws⟩
    · exact ⟨_, .match_ ws⟩

/-! ## The texts -/

theorem argsSig_bracketed : ∀ e ∈ opsList, e.argsSig = bracketed Operand.short (e.docArgs.map DocArg.operand) := by decide +kernel

theorem fullSig_bracketed : ∀ e ∈ opsList, e.name ∉ [b!"replace", b!"extract", b!"txn", b!"gtxns", b!"gtxn"] →
    e.fullSig = e.name ++ b!" " ++ bracketed Operand.long (e.docArgs.map DocArg.operand) := by decide +kernel

theorem insert_plain : ∀ e ∈ opsList, (e.name.all fun c => c != 36 && c != 92) = true ∧
    ∀ a ∈ e.docArgs, (a.name.all fun c => c != 36 && c != 92 && c != 125) = true := by decide +kernel

/-! ## Snippets -/

variable {fill : Nat → Bytes}

theorem expands_text {s r t : Bytes} (hs : ∀ c ∈ s, c ≠ 36 ∧ c ≠ 92) (h : Expands fill r t) : Expands fill (s ++ r) (s ++ t) := by
  induction s with
  | nil => exact h
  | cons c s ih => exact .char c _ _ (hs c (by simp)) (ih fun d hd => hs d (by simp [hd]))

theorem expands_placeholder {i : Nat} {d r t : Bytes} (hd : ∀ c ∈ d, c ≠ 36 ∧ c ≠ 92 ∧ c ≠ 125) (h : Expands fill r t) :
    Expands fill (placeholder i d ++ r) (fill i ++ t) := by
  have e : placeholder i d ++ r = b!"${" ++ formatUint i ++ 58 :: (d ++ 125 :: r) := by
    simp [placeholder, List.append_assoc]
  rw [e]
  exact .placeholder i _ d r t (formatUint_decimal i) hd h

theorem range_shift {n i : Nat} (f : Nat → Bytes) :
    (List.range (n + 1)).flatMap (fun k => f (i + k)) = f i ++ (List.range n).flatMap fun k => f (i + 1 + k) := by
  rw [List.range_succ_eq_map, List.flatMap_cons, List.flatMap_map]
  congr 1
  congr 1
  funext k
  rw [show i + (k + 1) = i + 1 + k by omega]

theorem expands_placeholders : ∀ (ns : List Bytes) (i : Nat), ns ≠ [] → (∀ n ∈ ns, ∀ c ∈ n, c ≠ 36 ∧ c ≠ 92 ∧ c ≠ 125) → ∀ {r t : Bytes},
    Expands fill r t →
    Expands fill (32 :: joinSpace (placeholders i ns) ++ r) ((List.range ns.length).flatMap (fun k => 32 :: fill (i + k)) ++ t)
  | [], _, h, _, _, _, _ => absurd rfl h
  | [n], i, _, hn, r, t, h => by
    have := expands_text (fill := fill) (s := [32]) (by decide) (expands_placeholder (i := i) (hn n (by simp)) h)
    simpa [placeholders, joinSpace, List.range_succ] using this
  | n :: m :: ns, i, _, hn, r, t, h => by
    have ih := expands_placeholders (m :: ns) (i + 1) (by simp) (fun x hx => hn x (by simp [hx])) h
    have := expands_text (fill := fill) (s := [32]) (by decide) (expands_placeholder (i := i) (hn n (by simp)) ih)
    rw [List.length_cons, range_shift fun k => 32 :: fill k]
    simpa [placeholders, joinSpace, List.append_assoc] using this

/-- What is inserted for an opcode with operands. -/
theorem expands_insert {e : OpEntry} (he : e ∈ opsList) (h : e.docArgs ≠ []) :
    Expands fill e.insert (e.name ++ (List.range e.docArgs.length).flatMap fun i => 32 :: fill (i + 1)) := by
  obtain ⟨h1, h2⟩ := insert_plain e he
  have hp := expands_placeholders (fill := fill) (e.docArgs.map (·.name)) 1 (by simpa using h) (by
    intro n hn c hc
    obtain ⟨a, ha, rfl⟩ := List.mem_map.1 hn
    simpa [and_assoc] using List.all_eq_true.1 (h2 a ha) c hc) .nil
  have := expands_text (s := e.name) (by intro c hc; simpa using List.all_eq_true.1 h1 c hc) hp
  simpa [OpEntry.insert, h, List.append_assoc, Nat.add_comm 1] using this

/-- The ways to expand. -/
theorem expands_cases {s r : Bytes} (h : Expands fill s r) :
    (s = [] ∧ r = []) ∨
    (∃ c s' r', s = c :: s' ∧ r = c :: r' ∧ c ≠ 36 ∧ c ≠ 92 ∧ Expands fill s' r') ∨
    (∃ c s' r', s = 92 :: c :: s' ∧ r = c :: r' ∧ Expands fill s' r') ∨
    (∃ i ds s' r', s = 36 :: (ds ++ s') ∧ r = fill i ++ r' ∧ DecimalOf i ds ∧ (∀ c t, s' = c :: t → ¬ (48 ≤ c ∧ c ≤ 57)) ∧ Expands fill s' r') ∨
    (∃ i ds s' r', s = 36 :: 123 :: (ds ++ 125 :: s') ∧ r = fill i ++ r' ∧ DecimalOf i ds ∧ Expands fill s' r') ∨
    (∃ i ds d s' r', s = 36 :: 123 :: (ds ++ 58 :: (d ++ 125 :: s')) ∧ r = fill i ++ r' ∧ DecimalOf i ds ∧
      (∀ c ∈ d, c ≠ 125) ∧ Expands fill s' r') := by
  cases h with
  | nil => exact .inl ⟨rfl, rfl⟩
  | char c s r h hs => exact .inr (.inl ⟨c, s, r, rfl, rfl, h.1, h.2, hs⟩)
  | escape c s r h hs => exact .inr (.inr (.inl ⟨c, s, r, rfl, rfl, hs⟩))
  | stop i ds s r hi hd hs => exact .inr (.inr (.inr (.inl ⟨i, ds, s, r, rfl, rfl, hi, hd, hs⟩)))
  | braces i ds s r hi hs => exact .inr (.inr (.inr (.inr (.inl ⟨i, ds, s, r, by simp, rfl, hi, hs⟩))))
  | placeholder i ds d s r hi hd hs =>
    exact .inr (.inr (.inr (.inr (.inr ⟨i, ds, d, s, r, by simp, rfl, hi, fun c hc => (hd c hc).2.2, hs⟩))))

theorem decimal_digits {n : Nat} {s : Bytes} (h : DecimalOf n s) : s ≠ [] ∧ ∀ c ∈ s, 48 ≤ c ∧ c ≤ 57 := by
  obtain ⟨ds, ⟨h1, h2⟩, h3, h4, h5⟩ := h
  refine ⟨h4, fun c hc => ?_⟩
  have hm : digitValue c ∈ ds.map some := h1 ▸ List.mem_map_of_mem hc
  obtain ⟨d, hd, e⟩ := List.mem_map.1 hm
  have := h2 d hd
  have key : ∀ c : UInt8, ∀ d : Fin 10, some d.val = digitValue c → 48 ≤ c ∧ c ≤ 57 := forall_byte (by decide +kernel)
  exact key c ⟨d, this⟩ e

theorem split_at {P : UInt8 → Prop} : ∀ {a b s t : Bytes}, (∀ c ∈ a, P c) → (∀ c ∈ b, P c) → (∀ c u, s = c :: u → ¬ P c) → (∀ c u, t = c :: u → ¬ P c) →
    a ++ s = b ++ t → a = b ∧ s = t
  | [], [], _, _, _, _, _, _, e => ⟨rfl, e⟩
  | [], y :: b, s, t, _, hb, hs, _, e => absurd (hb y (by simp)) (hs y _ e)
  | x :: a, [], s, t, ha, _, _, ht, e => absurd (ha x (by simp)) (ht x _ e.symm)
  | x :: a, y :: b, s, t, ha, hb, hs, ht, e => by
    simp only [List.cons_append, List.cons.injEq] at e
    obtain ⟨h1, h2⟩ := split_at (fun c hc => ha c (by simp [hc])) (fun c hc => hb c (by simp [hc])) hs ht e.2
    exact ⟨by rw [e.1, h1], h2⟩

theorem decimal_brace {i : Nat} {ds s t : Bytes} (h : DecimalOf i ds) (e : ds ++ s = 123 :: t) : False := by
  obtain ⟨h1, h2⟩ := decimal_digits h
  cases ds with
  | nil => exact h1 rfl
  | cons c ds =>
    cases e
    exact absurd (h2 123 (by simp)) (by decide)

/-- A snippet has at most one expansion. -/
theorem expands_unique {s r : Bytes} (h : Expands fill s r) : ∀ r', Expands fill s r' → r = r' := by
  have stop : ∀ {c : UInt8} {s : Bytes}, ¬ (48 ≤ c ∧ c ≤ 57) → ∀ d u, c :: s = d :: u → ¬ (48 ≤ d ∧ d ≤ 57) := by
    intro c s h d u e
    cases e
    exact h
  have lead : ∀ {a b s t : Bytes} {i j : Nat}, DecimalOf i a → DecimalOf j b → (∀ c u, s = c :: u → ¬ (48 ≤ c ∧ c ≤ 57)) →
      (∀ c u, t = c :: u → ¬ (48 ≤ c ∧ c ≤ 57)) → a ++ s = b ++ t → i = j ∧ s = t := by
    intro a b s t i j h1 h2 h3 h4 e
    obtain ⟨rfl, e2⟩ := split_at (decimal_digits h1).2 (decimal_digits h2).2 h3 h4 e
    exact ⟨decimal_eq h1 h2, e2⟩
  induction h with
  | nil =>
    intro r' h'
    rcases expands_cases h' with ⟨-, h⟩ | ⟨c, s', r', e, -⟩ | ⟨c, s', r', e, -⟩ | ⟨i, ds, s', r', e, -⟩ | ⟨i, ds, s', r', e, -⟩ | ⟨i, ds, d, s', r', e, -⟩
    · exact h.symm
    all_goals cases e
  | char c s r h hs ih =>
    intro r' h'
    rcases expands_cases h' with ⟨e, -⟩ | ⟨c', s', r', e, rfl, h1, h2, h3⟩ | ⟨c, s', r', e, -⟩ | ⟨i, ds, s', r', e, -⟩ | ⟨i, ds, s', r', e, -⟩ | ⟨i, ds, d, s', r', e, -⟩
    · cases e
    · cases e
      rw [ih _ h3]
    · cases e; exact absurd rfl h.2
    all_goals (cases e; exact absurd rfl h.1)
  | escape c s r h hs ih =>
    intro r' h'
    rcases expands_cases h' with ⟨e, -⟩ | ⟨c', s', r', e, rfl, h1, h2, h3⟩ | ⟨c', s', r', e, rfl, h3⟩ | ⟨i, ds, s', r', e, -⟩ | ⟨i, ds, s', r', e, -⟩ | ⟨i, ds, d, s', r', e, -⟩
    · cases e
    · cases e; exact absurd rfl h2
    · cases e
      rw [ih _ h3]
    all_goals cases e
  | stop i ds s r hi hd hs ih =>
    intro r' h'
    rcases expands_cases h' with ⟨e, -⟩ | ⟨c', s', r', e, rfl, h1, h2, h3⟩ | ⟨c', s', r', e, -⟩ | ⟨i', ds', s', r', e, rfl, h1, h2, h3⟩ |
      ⟨i', ds', s', r', e, -⟩ | ⟨i', ds', d, s', r', e, -⟩
    · cases e
    · exact absurd (List.cons.inj e).1.symm h1
    · cases e
    · obtain ⟨rfl, rfl⟩ := lead hi h1 hd h2 (List.cons.inj e).2
      rw [ih _ h3]
    · exact (decimal_brace hi (List.cons.inj e).2).elim
    · exact (decimal_brace hi (List.cons.inj e).2).elim
  | braces i ds s r hi hs ih =>
    intro r' h'
    have e0 : b!"${" ++ ds ++ 125 :: s = 36 :: 123 :: (ds ++ 125 :: s) := by simp
    rw [e0] at h'
    rcases expands_cases h' with ⟨e, -⟩ | ⟨c', s', r', e, rfl, h1, h2, h3⟩ | ⟨c', s', r', e, -⟩ | ⟨i', ds', s', r', e, rfl, h1, h2, h3⟩ |
      ⟨i', ds', s', r', e, rfl, h1, h3⟩ | ⟨i', ds', d, s', r', e, rfl, h1, h2, h3⟩
    · cases e
    · exact absurd (List.cons.inj e).1.symm h1
    · cases e
    · exact (decimal_brace h1 (List.cons.inj e).2.symm).elim
    · obtain ⟨rfl, e2⟩ := lead hi h1 (stop (by decide)) (stop (by decide)) (List.cons.inj (List.cons.inj e).2).2
      cases e2
      rw [ih _ h3]
    · obtain ⟨rfl, e2⟩ := lead hi h1 (stop (by decide)) (stop (by decide)) (List.cons.inj (List.cons.inj e).2).2
      cases e2
  | placeholder i ds d s r hi hd hs ih =>
    intro r' h'
    have e0 : b!"${" ++ ds ++ 58 :: (d ++ 125 :: s) = 36 :: 123 :: (ds ++ 58 :: (d ++ 125 :: s)) := by simp
    rw [e0] at h'
    rcases expands_cases h' with ⟨e, -⟩ | ⟨c', s', r', e, rfl, h1, h2, h3⟩ | ⟨c', s', r', e, -⟩ | ⟨i', ds', s', r', e, rfl, h1, h2, h3⟩ |
      ⟨i', ds', s', r', e, rfl, h1, h3⟩ | ⟨i', ds', d', s', r', e, rfl, h1, h2, h3⟩
    · cases e
    · exact absurd (List.cons.inj e).1.symm h1
    · cases e
    · exact (decimal_brace h1 (List.cons.inj e).2.symm).elim
    · obtain ⟨rfl, e2⟩ := lead hi h1 (stop (by decide)) (stop (by decide)) (List.cons.inj (List.cons.inj e).2).2
      cases e2
    · obtain ⟨rfl, e2⟩ := lead hi h1 (stop (by decide)) (stop (by decide)) (List.cons.inj (List.cons.inj e).2).2
      have e3 := (List.cons.inj e2).2
      have nb : ∀ {s : Bytes} (c : UInt8) (u : Bytes), 125 :: s = c :: u → ¬ c ≠ 125 := by
        intro s c u e
        cases e
        simp
      obtain ⟨-, e4⟩ := split_at (P := fun c => c ≠ 125) (fun c hc => (hd c hc).2.2) h2 nb nb e3
      cases e4
      rw [ih _ h3]

end Teal
