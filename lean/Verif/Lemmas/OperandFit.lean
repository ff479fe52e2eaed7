import Verif.Spec.Operand
import Verif.Lemmas.Operand
import Verif.Lemmas.Signature
import Verif.Lemmas.LineOps
import Verif.Lemmas.Instr

/-!
# Lemmas: which operands fit, and what is said about those that do not
-/

namespace Teal

open Spec P Props

variable {e : ErrorTexts} {addrOk : Bytes → Bool} {ver : Nat} {w : Bytes}

/-- Where the code reads an operand of the opcode `w` as the reference says. -/
structure Suits (ver : Nat) (w : Bytes) (ty : ArgType) (ws : List Bytes) : Prop where
  group : ty ≠ .field (.group .txn)
  const : ty = .constInt → w = b!"int"
  uint : ty = .uint64 → w ≠ b!"int"
  array : ty = .field (.txn .txna) → ∀ x ∈ ws, ∀ d ∈ txnFields, d.name = x → d.array = true → d.since ≤ ver
  closed : ty = .bytes → ∀ x ∈ ws, Closed x
  wordy : ∀ x ∈ ws, Wordy x ∧ x ≠ [34]

/-! ## Fields -/

theorem fieldError_name (g : FieldGroup) (v : Nat) {d : DocField} (h : d ∈ documented g) :
    fieldError e g v d.name = if d.since ≤ v then none else some (needText d.since v) := by
  obtain ⟨i, hi⟩ := List.mem_iff_getElem?.1 h
  obtain ⟨s, hs, h1, h2⟩ := documented_spec g i d hi
  obtain ⟨h3, h4⟩ := mem_specs_of_index g i s hs
  unfold fieldError
  rw [← h1, ← h4, specByName_mem g s h3]
  simp only [h2]
  by_cases hv : d.since ≤ v
  · rw [if_pos hv, if_neg (by omega)]
  · rw [if_neg hv, if_pos (by omega)]

theorem specByName_other (g : FieldGroup) (s : Bytes) (h : ∀ d ∈ documented g, d.name ≠ s) : g.specByName.get s = none := by
  apply specByName_none
  intro sp hsp he
  have h2 : (documented g).map (·.name) = g.specs.map fun s => g.str s.field := by
    have h := congrArg (fun l => l.map Prod.fst) (documented_specs g)
    simp only [List.map_map] at h
    exact h
  have : s ∈ (documented g).map (·.name) := by
    rw [h2, ← he]
    exact List.mem_map_of_mem hsp
  obtain ⟨d, hd, hde⟩ := List.mem_map.1 this
  exact h d hd hde

theorem fieldError_other (g : FieldGroup) (v : Nat) {s : Bytes} (h : ∀ d ∈ documented g, d.name ≠ s) :
    fieldError e g v s = if readUint8 s = none then some (b!"failed to parse txn field: " ++ e.uint8 s) else none := by
  unfold fieldError
  rw [specByName_other g s h]

theorem txnError_name (c : FieldContext) (v : Nat) {d : DocTxnField} (h : d ∈ txnFields) :
    txnFieldError e c v d.name = match c with
      | .txn => if d.since ≤ v then none else some (needText d.since v)
      | .txna => if d.array then none else some b!"not available in array context"
      | .itxn =>
        match d.inner with
        | none => some b!"not available for internal transactions"
        | some n => if n ≤ v then none else some (needText n v) := by
  obtain ⟨i, hi⟩ := List.mem_iff_getElem?.1 h
  obtain ⟨s, hs, h1, h2, h3, h4⟩ := txnFields_spec i d hi
  obtain ⟨h5, h6⟩ := mem_specs_of_index .txn i s hs
  unfold txnFieldError
  rw [← h1, ← h6, specByName_mem .txn s h5]
  cases c with
  | txn =>
    simp only [h2, reduceCtorEq, false_and, if_false]
    by_cases hv : d.since ≤ v
    · rw [if_pos hv, if_neg (by omega)]
    · rw [if_neg hv, if_pos (by omega)]
  | txna =>
    simp only [h3, true_and, reduceCtorEq, false_and, if_false]
    cases d.array <;> simp
  | itxn =>
    rw [← h4]
    simp only [reduceCtorEq, false_and, if_false, true_and]
    by_cases h0 : s.itxVersion = 0
    · rw [if_pos h0, if_pos h0]
    · rw [if_neg h0, if_neg h0]
      simp only
      by_cases hv : s.itxVersion ≤ v
      · rw [if_pos hv, if_neg (by omega)]
      · rw [if_neg hv, if_pos (by omega)]

theorem txnError_other (c : FieldContext) (v : Nat) {s : Bytes} (h : ∀ d ∈ txnFields, d.name ≠ s) :
    txnFieldError e c v s = if readUint8 s = none then some (b!"failed to parse txn field: " ++ e.uint8 s) else none := by
  unfold txnFieldError
  rw [specByName_other .txn s (by
    intro d hd
    obtain ⟨x, hx, rfl⟩ := List.mem_map.1 hd
    exact h x hx)]

theorem heading_prefix (r : FieldReader) (hr : r ≠ .group .txn) (name : Bytes) (a b : Bool) :
    (⟨name, (ArgType.field r).text, a, b⟩ : Operand).heading = r.prefix_ name := by
  cases r with
  | group g => cases g <;> first | rfl | exact absurd rfl hr
  | txn c => cases c <;> rfl

theorem group_kind (g : FieldGroup) (hg : g ≠ .txn) : ((ArgType.field (.group g)).text, documented g) ∈ fieldKinds := by
  cases g <;> first | exact absurd rfl hg | simp [fieldKinds, ArgType.text, documented]

theorem tooNew_needText (n v : Nat) : TooNew n v (needText n v) :=
  ⟨_, _, formatUint_decimal n, formatUint_decimal v, rfl⟩

theorem tooNew_text {n v : Nat} {m : Bytes} (h : TooNew n v m) : m = needText n v := by
  obtain ⟨s, t, h1, h2, rfl⟩ := h
  rw [decimal_spelling h1 (formatUint_decimal n), decimal_spelling h2 (formatUint_decimal v)]
  rfl

/-! ## Byte constants -/

theorem bytesError_at (x : Bytes) (ws : List Bytes) :
    (bytesError e x ws = none ↔ ∃ v, bytesAt x ws = some (v, behind .bytes x ws)) ∧
      ∀ v rest, bytesAt x ws = some (v, rest) → rest = behind .bytes x ws := by
  have two : ∀ b : Bool, takesTwo .bytes x = b → behind .bytes x ws = if b then ws.tail else ws := by
    rintro b rfl; rfl
  have t : takesTwo .bytes x = encodingWords.contains x := rfl
  have no : ¬ (x = b!"base32" ∨ x = b!"b32") → ¬ (x = b!"base64" ∨ x = b!"b64") → takesTwo .bytes x = false := by
    intro h1 h2
    rw [t]
    simp only [not_or] at h1 h2
    simp [encodingWords, h1, h2]
  have yes : (x = b!"base32" ∨ x = b!"b32") ∨ (x = b!"base64" ∨ x = b!"b64") → takesTwo .bytes x = true := by
    rintro ((rfl | rfl) | (rfl | rfl)) <;> rfl
  have pre : ∀ {p : Bytes}, hasPrefix x p = true → p ∈ [b!"base32(", b!"b32(", b!"base64(", b!"b64(", b!"0x"] →
      ¬ (x = b!"base32" ∨ x = b!"b32") ∧ ¬ (x = b!"base64" ∨ x = b!"b64") := by
    intro p hp hm
    constructor <;> rintro (rfl | rfl) <;> (simp only [List.mem_cons, List.not_mem_nil, or_false] at hm; rcases hm with rfl | rfl | rfl | rfl | rfl <;> exact absurd hp (by decide))
  unfold bytesError bytesAt
  dsimp only
  split
  · rename_i hp
    have hn : ¬ (x = b!"base32" ∨ x = b!"b32") ∧ ¬ (x = b!"base64" ∨ x = b!"b64") := by
      rcases Bool.or_eq_true _ _ ▸ hp with hp | hp <;> exact pre hp (by decide)
    rw [two _ (no hn.1 hn.2)]
    cases parenBody x with
    | none => simp
    | some s => dsimp only [Option.bind_some]; cases base32DecodeAnyPadding s <;> simp
  split
  · rename_i hp
    have hn : ¬ (x = b!"base32" ∨ x = b!"b32") ∧ ¬ (x = b!"base64" ∨ x = b!"b64") := by
      rcases Bool.or_eq_true _ _ ▸ hp with hp | hp <;> exact pre hp (by decide)
    rw [two _ (no hn.1 hn.2)]
    cases parenBody x with
    | none => simp
    | some s => dsimp only [Option.bind_some]; cases b64Decode s <;> simp
  split
  · rename_i hp
    have hn := pre hp (by decide)
    rw [two _ (no hn.1 hn.2)]
    cases hexDecode (x.drop 2) <;> simp
  split
  · rename_i hp
    rw [two _ (yes (.inl hp))]
    cases ws with
    | nil => simp
    | cons y ys => dsimp only; cases base32DecodeAnyPadding y <;> simp
  split
  · rename_i hp
    rw [two _ (yes (.inr hp))]
    cases ws with
    | nil => simp
    | cons y ys => dsimp only; cases b64Decode y <;> simp
  rename_i h1 h2
  rw [two _ (no h1 h2)]
  split
  · cases parseStringLiteral x <;> simp
  · simp

theorem bytesError_none (x : Bytes) (ws : List Bytes) :
    bytesError e x ws = none ↔ ∃ v, bytesAt x ws = some (v, behind .bytes x ws) := (bytesError_at x ws).1

theorem quoted_body {x : Bytes} (hq : x.head? = some chQuote ∧ x.getLast? = some chQuote) (hne : x ≠ [34]) : ∃ s, x = 34 :: (s ++ [34]) := by
  cases x with
  | nil => cases hq.1
  | cons c t =>
    obtain rfl : c = 34 := Option.some.inj hq.1
    cases ht : t.reverse with
    | nil =>
      obtain rfl := List.reverse_eq_nil_iff.1 ht
      exact absurd rfl hne
    | cons z zs =>
      have h1 : t = zs.reverse ++ [z] := by rw [← List.reverse_reverse t, ht, List.reverse_cons]
      subst h1
      have h2 := hq.2
      rw [← List.cons_append, List.getLast?_concat] at h2
      obtain rfl : z = 34 := Option.some.inj h2
      exact ⟨_, rfl⟩

/-! ## What fits -/

theorem fits_none {name : Bytes} {ty : ArgType} {x : Bytes} {ws g rest : List Bytes} (h : Suits ver w ty (x :: ws))
    (hk : OfKind addrOk ver w ty.text g) (hx : x :: ws = g ++ rest) :
    argError e addrOk ver name ty x ws = none ∧ behind ty x ws = rest := by
  cases ty with
  | uint8 =>
    obtain ⟨y, n, rfl, hy⟩ := kind_byte hk
    cases hx
    exact ⟨by unfold argError; simp [(C11_uint8 x n).2 hy], rfl⟩
  | int8 =>
    obtain ⟨y, n, rfl, hy⟩ := kind_small hk
    cases hx
    exact ⟨by unfold argError; simp [(C11_int8 x n).2 hy], rfl⟩
  | uint64 =>
    obtain ⟨y, n, rfl, hy⟩ := kind_uint hk
    cases hx
    rcases hy with hy | ⟨hy, -⟩
    · exact ⟨by unfold argError; simp [(C11_int_literal x n).2 hy], rfl⟩
    · exact absurd hy (h.uint rfl)
  | constInt =>
    obtain ⟨y, n, rfl, hy⟩ := kind_uint hk
    cases hx
    have : IsConst x n := hy.elim .inr (·.2)
    exact ⟨by unfold argError; simp [(readConstInt_iff x n).2 this], rfl⟩
  | bytes =>
    obtain ⟨v, hv⟩ := kind_bytes hk
    obtain ⟨y, ys, h1, h2⟩ := bytesAt_of hv rest
    rw [← hx] at h1
    cases h1
    obtain rfl := (bytesError_at (e := e) x ws).2 v rest h2
    exact ⟨(bytesError_none x ws).2 ⟨v, h2⟩, rfl⟩
  | label =>
    obtain ⟨y, rfl⟩ := kind_label hk
    cases hx
    exact ⟨rfl, rfl⟩
  | signature =>
    obtain ⟨s, rfl⟩ := kind_signature hk
    cases hx
    refine ⟨?_, rfl⟩
    unfold argError
    dsimp only
    rw [if_pos ⟨rfl, by rw [← List.cons_append, List.getLast?_append]; simp [chQuote]⟩]
  | addr =>
    obtain ⟨y, rfl, hy⟩ := kind_address hk
    cases hx
    exact ⟨by unfold argError; simp [hy], rfl⟩
  | field r =>
    have key : ∀ {x : Bytes} {i : Nat} {ws : List Bytes}, (readFieldWith r ver x).map (·.field) = some i → argError e addrOk ver name (.field r) x ws = none := by
      intro x i ws h
      obtain ⟨a, h1, -⟩ := Option.map_eq_some_iff.1 h
      unfold argError
      dsimp only
      rw [(readerError_none r ver x).2 ⟨a, h1⟩]
      rfl
    cases r with
    | group g =>
      have hg : g ≠ .txn := fun hg => h.group (by rw [hg])
      obtain ⟨y, f, rfl, hy⟩ := kind_field (group_kind g hg) hk
      cases hx
      exact ⟨key ((field_iff g ver x f).2 hy), rfl⟩
    | txn c =>
      cases c with
      | txn =>
        obtain ⟨y, f, rfl, hy⟩ := kind_txn hk
        cases hx
        exact ⟨key ((txnField_iff ver x f).2 hy), rfl⟩
      | txna =>
        obtain ⟨y, f, rfl, hy⟩ := kind_array hk
        cases hx
        exact ⟨key ((arrayField_iff ver x f (h.array rfl x (by simp))).2 hy), rfl⟩
      | itxn =>
        obtain ⟨y, f, rfl, hy⟩ := kind_inner hk
        cases hx
        exact ⟨key ((innerField_iff ver x f).2 hy), rfl⟩

theorem none_fits {name : Bytes} {ty : ArgType} {x : Bytes} {ws : List Bytes} (h : Suits ver w ty (x :: ws))
    (hn : argError e addrOk ver name ty x ws = none) : ∃ g, x :: ws = g ++ behind ty x ws ∧ OfKind addrOk ver w ty.text g := by
  have one : ∀ {r : Option Nat} {z : Nat × ParseWhy × Bytes}, (if r = none then some z else none) = none → ∃ n, r = some n := by
    intro r z hr
    cases r with
    | none => cases hr
    | some n => exact ⟨n, rfl⟩
  cases ty with
  | uint8 => 
    obtain ⟨n, hy⟩ := one hn
    exact ⟨[x], rfl, .byte x n ((C11_uint8 x n).1 hy)⟩
  | int8 =>
    cases hy : readInt8 x with
    | none => unfold argError at hn; simp [hy] at hn
    | some n => exact ⟨[x], rfl, .small x n ((C11_int8 x n).1 hy)⟩
  | uint64 =>
    obtain ⟨n, hy⟩ := one hn
    exact ⟨[x], rfl, .uint x n ((C11_int_literal x n).1 hy)⟩
  | constInt =>
    obtain ⟨n, hy⟩ := one hn
    exact ⟨[x], rfl, .const x n (h.const rfl) ((readConstInt_iff x n).1 hy)⟩
  | bytes =>
    obtain ⟨v, hv⟩ := (bytesError_none x ws).1 hn
    obtain ⟨g, h1, h2⟩ := of_bytesAt (fun y hy => (h.wordy y hy).1) (h.closed rfl x (by simp)) hv
    exact ⟨g, h1, .bytes g v h2⟩
  | label => exact ⟨[x], rfl, .label x⟩
  | signature =>
    unfold argError at hn
    dsimp only at hn
    split at hn
    · rename_i hq
      obtain ⟨s, rfl⟩ := quoted_body hq (h.wordy x (by simp)).2
      exact ⟨[_], rfl, .signature s⟩
    · cases hn
  | addr =>
    unfold argError at hn
    dsimp only at hn
    split at hn
    · rename_i ha
      exact ⟨[x], rfl, .address x ha⟩
    · cases hn
  | field r =>
    obtain ⟨a, ha⟩ := (readerError_none r ver x).1 (by
      unfold argError at hn
      exact Option.map_eq_none_iff.1 hn)
    have hm : (readFieldWith r ver x).map (·.field) = some a.field := by rw [ha]; rfl
    refine ⟨[x], rfl, ?_⟩
    cases r with
    | group g =>
      have hg : g ≠ .txn := fun hg => h.group (by rw [hg])
      exact .field _ _ x _ (group_kind g hg) ((field_iff g ver x _).1 hm)
    | txn c =>
      cases c with
      | txn => exact .txn x _ ((txnField_iff ver x _).1 hm)
      | txna => exact .array x _ ((arrayField_iff ver x _ (h.array rfl x (by simp))).1 hm)
      | itxn => exact .inner x _ ((innerField_iff ver x _).1 hm)

/-! ## What is said -/

theorem bytes_says {name : Bytes} {a b : Bool} {x : Bytes} {ws : List Bytes} (hc : Closed x) (hq : Wordy x ∧ x ≠ [34]) {n : Nat} {why : ParseWhy}
    {m : Bytes} (h : bytesError e x ws = some (n, why, m)) :
    ∃ i, Says e ver ⟨name, b!"bytes", a, b⟩ (x :: ws) i m ∧ i ≤ ws.length ∧ n = ws.length + 1 - i ∧ why.ofOperand = true := by
  unfold bytesError at h
  dsimp only at h
  have paren : ∀ {p s : Bytes}, p ∈ [b!"base32(", b!"b32(", b!"base64(", b!"b64("] → Closed (p ++ s) →
      (parenBody (p ++ s) = none ∧ 41 ∉ s) ∨ ∃ t, parenBody (p ++ s) = some t ∧ s = t ++ [41] ∧ 41 ∉ t := by
    intro p s hp hc
    cases hb : parenBody (p ++ s) with
    | some t => exact .inr ⟨t, rfl, ((paren_iff hp hc t).1 hb).1, ((paren_iff hp hc t).1 hb).2⟩
    | none =>
      refine .inl ⟨rfl, fun hm => ?_⟩
      obtain ⟨t, z, rfl, ht⟩ := split_first hm
      have hz : z = [] := hc p hp t z (by simp)
      subst hz
      rw [(paren_iff hp hc t).2 ⟨rfl, ht⟩] at hb
      cases hb
  split at h
  · rename_i hp
    have key : ∃ p s, x = p ++ s ∧ p ∈ [b!"base32(", b!"b32("] := by
      rw [Bool.or_eq_true, hasPrefix_iff, hasPrefix_iff] at hp
      rcases hp with ⟨t, rfl⟩ | ⟨t, rfl⟩
      · exact ⟨_, t, rfl, by simp⟩
      · exact ⟨_, t, rfl, by simp⟩
    obtain ⟨p, s, rfl, hm⟩ := key
    have hm' : p ∈ [b!"base32(", b!"b32(", b!"base64(", b!"b64("] := by
      simp only [List.mem_cons, List.not_mem_nil, or_false] at hm ⊢
      rcases hm with hm | hm <;> simp [hm]
    rcases paren hm' hc with ⟨h1, h2⟩ | ⟨t, h1, rfl, h3⟩
    · rw [h1] at h
      cases h
      exact ⟨0, .open32 p s ws rfl hm h2, Nat.zero_le _, rfl, rfl⟩
    · rw [h1] at h
      dsimp only at h
      split at h
      · cases h
        exact ⟨0, by rw [← List.append_assoc]; exact .base32 p t ws rfl hm h3, Nat.zero_le _, rfl, rfl⟩
      · cases h
  rename_i n1
  split at h
  · rename_i hp
    have key : ∃ p s, x = p ++ s ∧ p ∈ [b!"base64(", b!"b64("] := by
      rw [Bool.or_eq_true, hasPrefix_iff, hasPrefix_iff] at hp
      rcases hp with ⟨t, rfl⟩ | ⟨t, rfl⟩
      · exact ⟨_, t, rfl, by simp⟩
      · exact ⟨_, t, rfl, by simp⟩
    obtain ⟨p, s, rfl, hm⟩ := key
    have hm' : p ∈ [b!"base32(", b!"b32(", b!"base64(", b!"b64("] := by
      simp only [List.mem_cons, List.not_mem_nil, or_false] at hm ⊢
      rcases hm with hm | hm <;> simp [hm]
    rcases paren hm' hc with ⟨h1, h2⟩ | ⟨t, h1, rfl, h3⟩
    · rw [h1] at h
      cases h
      exact ⟨0, .open64 p s ws rfl hm h2, Nat.zero_le _, rfl, rfl⟩
    · rw [h1] at h
      dsimp only at h
      split at h
      · cases h
        exact ⟨0, by rw [← List.append_assoc]; exact .base64 p t ws rfl hm h3, Nat.zero_le _, rfl, rfl⟩
      · cases h
  rename_i n2
  split at h
  · rename_i hp
    rw [hasPrefix_iff] at hp
    obtain ⟨s, rfl⟩ := hp
    split at h
    · cases h
      exact ⟨0, .hex s ws rfl, Nat.zero_le _, rfl, rfl⟩
    · cases h
  rename_i n3
  split at h
  · rename_i hp
    have hm : x ∈ [b!"base32", b!"b32"] := by simpa using hp
    cases ws with
    | nil =>
      cases h
      exact ⟨0, .literal x rfl (by rcases hp with rfl | rfl <;> simp), Nat.zero_le _, rfl, rfl⟩
    | cons y ys =>
      dsimp only at h
      split at h
      · cases h
        exact ⟨1, .base32' x y ys rfl hm, by simp, by simp, rfl⟩
      · cases h
  rename_i n4
  split at h
  · rename_i hp
    have hm : x ∈ [b!"base64", b!"b64"] := by simpa using hp
    cases ws with
    | nil =>
      cases h
      exact ⟨0, .literal x rfl (by rcases hp with rfl | rfl <;> simp), Nat.zero_le _, rfl, rfl⟩
    | cons y ys =>
      dsimp only at h
      split at h
      · cases h
        exact ⟨1, .base64' x y ys rfl hm, by simp, by simp, rfl⟩
      · cases h
  rename_i n5
  split at h
  · rename_i hp
    obtain ⟨s, rfl⟩ := quoted_body hp.2 hq.2
    split at h
    · cases h
    · cases h
      exact ⟨0, .string s ws rfl, Nat.zero_le _, rfl, rfl⟩
  · rename_i n6
    cases h
    refine ⟨0, .other x ws rfl ?_ ?_ ?_, Nat.zero_le _, rfl, rfl⟩
    · intro p hp s hx
      subst hx
      have hpre : hasPrefix (p ++ s) p = true := (hasPrefix_iff _ _).2 ⟨s, rfl⟩
      simp only [List.mem_cons, List.not_mem_nil, or_false] at hp
      rcases hp with rfl | rfl | rfl | rfl | rfl
      · exact n1 (by rw [hpre, Bool.true_or])
      · exact n1 (by rw [hpre, Bool.or_true])
      · exact n2 (by rw [hpre, Bool.true_or])
      · exact n2 (by rw [hpre, Bool.or_true])
      · exact n3 hpre
    · simp only [List.mem_cons, List.not_mem_nil, or_false]
      rintro (h | h | h | h)
      · exact n4 (.inl h)
      · exact n4 (.inr h)
      · exact n5 (.inl h)
      · exact n5 (.inr h)
    · rintro s rfl
      exact n6 ⟨by simp, rfl, by rw [← List.cons_append, List.getLast?_concat]⟩

theorem error_says {name : Bytes} {a b : Bool} {ty : ArgType} {x : Bytes} {ws : List Bytes} (h : Suits ver w ty (x :: ws)) {n : Nat}
    {why : ParseWhy} {m : Bytes} (he : argError e addrOk ver name ty x ws = some (n, why, m)) :
    ∃ i, Says e ver ⟨name, ty.text, a, b⟩ (x :: ws) i m ∧ i ≤ ws.length ∧ n = ws.length + 1 - i ∧ why.ofOperand = true := by
  cases ty with
  | bytes => exact bytes_says (h.closed rfl x (by simp)) (h.wordy x (by simp)) he
  | label => cases he
  | field r =>
    have hr : r ≠ .group .txn := fun hr => h.group (by rw [hr])
    unfold argError at he
    dsimp only at he
    obtain ⟨m', h1, h2⟩ := Option.map_eq_some_iff.1 he
    cases h2
    rw [← heading_prefix r hr name a b]
    refine ⟨0, ?_, Nat.zero_le _, rfl, rfl⟩
    cases r with
    | group g =>
      have hg : g ≠ .txn := fun hg => hr (by rw [hg])
      change fieldError e g ver x = some m' at h1
      by_cases hd : ∃ d ∈ documented g, d.name = x
      · obtain ⟨d, hd, rfl⟩ := hd
        rw [fieldError_name g ver hd] at h1
        split at h1
        · cases h1
        · cases h1
          exact .newField _ ws _ d _ (group_kind g hg) hd rfl (tooNew_needText _ _)
      · have hno : ∀ d ∈ documented g, d.name ≠ x := fun d h1 h2 => hd ⟨d, h1, h2⟩
        rw [fieldError_other g ver hno] at h1
        split at h1
        · cases h1
          rw [← List.append_assoc]
          exact .noField _ ws _ (group_kind g hg) hno
        · cases h1
    | txn c =>
      change txnFieldError e c ver x = some m' at h1
      by_cases hd : ∃ d ∈ txnFields, d.name = x
      · obtain ⟨d, hd, rfl⟩ := hd
        rw [txnError_name c ver hd] at h1
        cases c with
        | txn =>
          dsimp only at h1
          split at h1
          · cases h1
          · cases h1
            exact .newTxn _ ws d _ rfl hd rfl (tooNew_needText _ _)
        | txna =>
          dsimp only at h1
          split at h1
          · cases h1
          · cases h1
            rename_i ha
            exact .notArray _ ws d rfl hd rfl (by simpa using ha)
        | itxn =>
          dsimp only at h1
          cases hi : d.inner with
          | none =>
            rw [hi] at h1
            cases h1
            exact .notInner _ ws d rfl hd rfl hi
          | some n =>
            rw [hi] at h1
            dsimp only at h1
            split at h1
            · cases h1
            · cases h1
              exact .newInner _ ws d n _ rfl hd rfl hi (tooNew_needText _ _)
      · have hno : ∀ d ∈ txnFields, d.name ≠ x := fun d h1 h2 => hd ⟨d, h1, h2⟩
        rw [txnError_other c ver hno] at h1
        split at h1
        · cases h1
          rw [← List.append_assoc]
          exact .noTxn _ ws (by cases c <;> simp [ArgType.text]) hno
        · cases h1
  | constInt =>
    unfold argError at he
    dsimp only at he
    split at he
    · cases he; exact ⟨0, .uint x ws rfl, Nat.zero_le _, rfl, rfl⟩
    · cases he
  | uint64 =>
    unfold argError at he
    dsimp only at he
    split at he
    · cases he; exact ⟨0, .uint x ws rfl, Nat.zero_le _, rfl, rfl⟩
    · cases he
  | uint8 =>
    unfold argError at he
    dsimp only at he
    split at he
    · cases he; exact ⟨0, .byte x ws rfl, Nat.zero_le _, rfl, rfl⟩
    · cases he
  | int8 =>
    unfold argError at he
    dsimp only at he
    split at he
    · cases he; exact ⟨0, .small x ws rfl, Nat.zero_le _, rfl, rfl⟩
    · cases he
  | signature =>
    unfold argError at he
    dsimp only at he
    split at he
    · cases he
    · cases he; exact ⟨0, .signature x ws rfl, Nat.zero_le _, rfl, rfl⟩
  | addr =>
    unfold argError at he
    dsimp only at he
    split at he
    · cases he
    · cases he; exact ⟨0, .address x ws rfl, Nat.zero_le _, rfl, rfl⟩

/-! ## Only that is said -/

/-- What is not said about operands of a kind. -/
macro "not_said" : tactic => do
  let hk := Lean.mkIdent `hk
  `(tactic| (dsimp only [ArgType.text] at $hk:ident; first
    | exact absurd $hk (by decide)
    | exact (basic_none (by decide) $hk).elim))

theorem bytesError_b32 {p s : Bytes} (hp : p ∈ [b!"base32(", b!"b32("]) (ws : List Bytes) :
    bytesError e (p ++ s) ws = match parenBody (p ++ s) with
      | none => some (ws.length + 1, .badBytes, b!"byte base32 arg lacks close paren")
      | some s => if base32DecodeAnyPadding s = none then some (ws.length + 1, .badBytes, e.base32 s) else none := by
  unfold bytesError
  simp only [List.mem_cons, List.not_mem_nil, or_false] at hp
  rcases hp with rfl | rfl <;> (dsimp only; rw [if_pos (by simp [hasPrefix, List.isPrefixOf])]; generalize parenBody _ = o; cases o <;> rfl)

theorem bytesError_b64 {p s : Bytes} (hp : p ∈ [b!"base64(", b!"b64("]) (ws : List Bytes) :
    bytesError e (p ++ s) ws = match parenBody (p ++ s) with
      | none => some (ws.length + 1, .badBytes, b!"byte base64 arg lacks close paren")
      | some s => if b64Decode s = none then some (ws.length + 1, .badBytes, e.base64 s) else none := by
  unfold bytesError
  simp only [List.mem_cons, List.not_mem_nil, or_false] at hp
  rcases hp with rfl | rfl <;>
    (dsimp only; rw [if_neg (by simp [hasPrefix, List.isPrefixOf]), if_pos (by simp [hasPrefix, List.isPrefixOf])]; generalize parenBody _ = o; cases o <;> rfl)

theorem paren_open {p s : Bytes} (hp : p ∈ [b!"base32(", b!"b32(", b!"base64(", b!"b64("]) (hs : 41 ∉ s) : parenBody (p ++ s) = none := by
  cases hb : parenBody (p ++ s) with
  | none => rfl
  | some t =>
    obtain ⟨q, rfl, hq⟩ := paren_prefix p hp
    rw [List.append_assoc, List.singleton_append, parenBody_iff q s t hq] at hb
    obtain ⟨z, rfl, -⟩ := hb
    exact absurd (by simp) hs

theorem paren_close {p s : Bytes} (hp : p ∈ [b!"base32(", b!"b32(", b!"base64(", b!"b64("]) (hs : 41 ∉ s) :
    parenBody (p ++ s ++ [41]) = some s := by
  obtain ⟨q, rfl, hq⟩ := paren_prefix p hp
  rw [show q ++ [40] ++ s ++ [41] = q ++ 40 :: (s ++ [41]) by simp]
  exact (parenBody_iff q _ s hq).2 ⟨[], rfl, hs⟩

theorem mem_paren32 {p : Bytes} (h : p ∈ [b!"base32(", b!"b32("]) : p ∈ [b!"base32(", b!"b32(", b!"base64(", b!"b64("] := by
  simp only [List.mem_cons, List.not_mem_nil, or_false] at h ⊢
  rcases h with h | h <;> simp [h]

theorem mem_paren64 {p : Bytes} (h : p ∈ [b!"base64(", b!"b64("]) : p ∈ [b!"base32(", b!"b32(", b!"base64(", b!"b64("] := by
  simp only [List.mem_cons, List.not_mem_nil, or_false] at h ⊢
  rcases h with h | h <;> simp [h]

set_option tactic.hygienic false in
theorem says_bytes {name : Bytes} {a b : Bool} {x : Bytes} {ws : List Bytes} {i : Nat} {m : Bytes}
    (hs : Says e ver ⟨name, b!"bytes", a, b⟩ (x :: ws) i m) (hne : bytesError e x ws ≠ none) :
    ∃ why, bytesError e x ws = some (ws.length + 1 - i, why, m) := by
  cases hs <;> try not_said
  case open32 =>
    rw [bytesError_b32 hp, paren_open (mem_paren32 hp) hs_1]
    exact ⟨_, rfl⟩
  case open64 =>
    rw [bytesError_b64 hp, paren_open (mem_paren64 hp) hs_1]
    exact ⟨_, rfl⟩
  case base32 =>
    rw [List.append_assoc, bytesError_b32 hp, ← List.append_assoc, paren_close (mem_paren32 hp) hs_1] at hne ⊢
    dsimp only at hne ⊢
    split at hne
    · rename_i h; rw [if_pos h]; exact ⟨_, rfl⟩
    · exact absurd rfl hne
  case base64 =>
    rw [List.append_assoc, bytesError_b64 hp, ← List.append_assoc, paren_close (mem_paren64 hp) hs_1] at hne ⊢
    dsimp only at hne ⊢
    split at hne
    · rename_i h; rw [if_pos h]; exact ⟨_, rfl⟩
    · exact absurd rfl hne
  case hex =>
    have hx : bytesError e (b!"0x" ++ s) ws = if hexDecode s = none then some (ws.length + 1, .badBytes, e.hex s) else none := by
      unfold bytesError
      simp [hasPrefix, List.isPrefixOf]
    rw [hx] at hne ⊢
    split at hne
    · rename_i h; rw [if_pos h]; exact ⟨_, rfl⟩
    · exact absurd rfl hne
  case literal =>
    simp only [List.mem_cons, List.not_mem_nil, or_false] at hx
    rcases hx with rfl | rfl | rfl | rfl <;> exact ⟨_, rfl⟩
  case base32' =>
    have hx : bytesError e x (x_1 :: ws_1) = if base32DecodeAnyPadding x_1 = none then some (ws_1.length + 1, .badBytes, e.base32 x_1) else none := by
      simp only [List.mem_cons, List.not_mem_nil, or_false] at hp
      rcases hp with rfl | rfl <;> rfl
    rw [hx] at hne ⊢
    split at hne
    · rename_i h; rw [if_pos h]; exact ⟨_, rfl⟩
    · exact absurd rfl hne
  case base64' =>
    have hx : bytesError e x (x_1 :: ws_1) = if b64Decode x_1 = none then some (ws_1.length + 1, .badBytes, e.base64 x_1) else none := by
      simp only [List.mem_cons, List.not_mem_nil, or_false] at hp
      rcases hp with rfl | rfl <;> rfl
    rw [hx] at hne ⊢
    split at hne
    · rename_i h; rw [if_pos h]; exact ⟨_, rfl⟩
    · exact absurd rfl hne
  case string =>
    have hx : bytesError e (34 :: (s ++ [34])) ws = match parseStringLiteral (34 :: (s ++ [34])) with
        | .ok _ => none
        | _ => some (ws.length + 1, .badBytes, e.string (34 :: (s ++ [34]))) := by
      unfold bytesError
      dsimp only
      rw [if_neg (by simp [hasPrefix, List.isPrefixOf]), if_neg (by simp [hasPrefix, List.isPrefixOf]),
        if_neg (by simp [hasPrefix, List.isPrefixOf]), if_neg (by simp), if_neg (by simp),
        if_pos ⟨by simp, by simp [chQuote], by rw [← List.cons_append, List.getLast?_append]; simp [chQuote]⟩]
      cases parseStringLiteral (34 :: (s ++ [34])) <;> rfl
    rw [hx] at hne ⊢
    cases hl : parseStringLiteral (34 :: (s ++ [34])) with
    | ok v => rw [hl] at hne; exact absurd rfl hne
    | err => exact ⟨_, rfl⟩
    | crash => exact ⟨_, rfl⟩
  case other =>
    have hno : ∀ p ∈ [b!"base32(", b!"b32(", b!"base64(", b!"b64(", b!"0x"], ¬ hasPrefix x p = true := by
      intro p hm h
      obtain ⟨s, hs⟩ := (hasPrefix_iff _ _).1 h
      exact hp p hm s hs
    simp only [List.mem_cons, List.not_mem_nil, or_false, not_or] at hx
    unfold bytesError
    dsimp only
    rw [if_neg (by rw [Bool.or_eq_true]; rintro (h | h) <;> exact hno _ (by decide) h),
      if_neg (by rw [Bool.or_eq_true]; rintro (h | h) <;> exact hno _ (by decide) h), if_neg (hno _ (by decide)),
      if_neg (by rintro (h | h); exacts [hx.1 h, hx.2.1 h]), if_neg (by rintro (h | h); exacts [hx.2.2.1 h, hx.2.2.2 h]),
      if_neg (by
        rintro ⟨h1, h2⟩
        obtain ⟨s, hs⟩ := quoted_body h2 (by rintro rfl; simp at h1)
        exact hq s hs)]
    exact ⟨_, rfl⟩

set_option tactic.hygienic false in
theorem says_field {name : Bytes} {a b : Bool} {r : FieldReader} (hr : r ≠ .group .txn) {x : Bytes} {ws : List Bytes} {i : Nat} {m : Bytes}
    (hs : Says e ver ⟨name, (ArgType.field r).text, a, b⟩ (x :: ws) i m) (hne : readerError e r ver x ≠ none) :
    i = 0 ∧ ∃ m', readerError e r ver x = some m' ∧ m = r.prefix_ name ++ m' := by
  have hh := heading_prefix r hr name a b
  have num : ∀ {o : Option Nat} {s : Bytes}, (if o = none then some s else none) ≠ none → (if o = none then some s else none) = some s := by
    intro o s h
    split at h
    · rename_i h0; rw [if_pos h0]
    · exact absurd rfl h
  cases r with
  | group g =>
    have hg : g ≠ .txn := fun hg => hr (by rw [hg])
    have ap := basic_apart
    have gk := group_kind g hg
    change fieldError e g ver x ≠ none at hne
    show _ ∧ ∃ m', fieldError e g ver x = some m' ∧ _
    cases hs <;> try exact absurd hk (basic_apart _ (by decide) _ gk)
    case newField =>
      obtain rfl : names = documented g := fieldKinds_unique _ hk _ gk rfl
      subst hx
      rw [fieldError_name g ver hd] at hne ⊢
      split at hne
      · exact absurd rfl hne
      · rename_i h0
        rw [if_neg h0, tooNew_text hm, hh]
        exact ⟨rfl, _, rfl, rfl⟩
    case noField =>
      obtain rfl : names = documented g := fieldKinds_unique _ hk _ gk rfl
      rw [fieldError_other g ver hx] at hne ⊢
      rw [num hne, hh]
      exact ⟨rfl, _, rfl, List.append_assoc ..⟩
    case noTxn =>
      refine absurd rfl (basic_apart _ ?_ _ gk)
      simp only [List.mem_cons, List.not_mem_nil, or_false] at hk
      simp only [basicKinds]
      rcases hk with h | h | h <;> simp [h]
  | txn c =>
    change txnFieldError e c ver x ≠ none at hne
    show _ ∧ ∃ m', txnFieldError e c ver x = some m' ∧ _
    have oth : (∀ d ∈ txnFields, d.name ≠ x) → m = FieldReader.prefix_ name (.txn c) ++ b!"failed to parse txn field: " ++ e.uint8 x →
        ∃ m', txnFieldError e c ver x = some m' ∧ m = FieldReader.prefix_ name (.txn c) ++ m' := by
      intro h1 h2
      rw [txnError_other c ver h1] at hne ⊢
      exact ⟨_, num hne, by rw [h2, List.append_assoc]⟩
    cases c with
    | txn =>
      cases hs <;> try not_said
      case newTxn =>
        subst hx
        rw [txnError_name _ ver hd] at hne ⊢
        dsimp only at hne ⊢
        split at hne
        · exact absurd rfl hne
        · rename_i h0
          rw [if_neg h0, tooNew_text hm, hh]
          exact ⟨rfl, _, rfl, rfl⟩
      case noTxn => exact ⟨rfl, oth hx (by rw [hh])⟩
    | txna =>
      cases hs <;> try not_said
      case notArray =>
        subst hx
        rw [txnError_name _ ver hd] at hne ⊢
        dsimp only at hne ⊢
        rw [ha, hh]
        exact ⟨rfl, _, rfl, rfl⟩
      case noTxn => exact ⟨rfl, oth hx (by rw [hh])⟩
    | itxn =>
      cases hs <;> try not_said
      case notInner =>
        subst hx
        rw [txnError_name _ ver hd] at hne ⊢
        dsimp only at hne ⊢
        rw [ha, hh]
        exact ⟨rfl, _, rfl, rfl⟩
      case newInner =>
        subst hx
        rw [txnError_name _ ver hd] at hne ⊢
        dsimp only at hne ⊢
        rw [ha] at hne ⊢
        dsimp only at hne ⊢
        split at hne
        · exact absurd rfl hne
        · rename_i h0
          rw [if_neg h0, tooNew_text hm, hh]
          exact ⟨rfl, _, rfl, rfl⟩
      case noTxn => exact ⟨rfl, oth hx (by rw [hh])⟩

set_option tactic.hygienic false in
theorem says_error {name : Bytes} {a b : Bool} {ty : ArgType} {x : Bytes} {ws : List Bytes} (h : Suits ver w ty (x :: ws)) {i : Nat}
    {m : Bytes} (hs : Says e ver ⟨name, ty.text, a, b⟩ (x :: ws) i m) (hne : argError e addrOk ver name ty x ws ≠ none) :
    ∃ why, argError e addrOk ver name ty x ws = some (ws.length + 1 - i, why, m) := by
  have num : ∀ {p : Prop} [Decidable p] {z : Nat × ParseWhy × Bytes}, (if p then some z else none) ≠ none → (if p then some z else none) = some z := by
    intro p _ z h
    split at h
    · rename_i h0; rw [if_pos h0]
    · exact absurd rfl h
  have num' : ∀ {p : Prop} [Decidable p] {z : Nat × ParseWhy × Bytes}, (if p then none else some z) ≠ none → (if p then none else some z) = some z := by
    intro p _ z h
    split at h
    · exact absurd rfl h
    · rename_i h0; rw [if_neg h0]
  cases ty with
  | bytes => exact says_bytes hs hne
  | label => exact absurd rfl hne
  | field r =>
    have hr : r ≠ .group .txn := fun hr => h.group (by rw [hr])
    unfold argError at hne ⊢
    dsimp only at hne ⊢
    obtain ⟨rfl, m', h1, rfl⟩ := says_field hr hs (fun h => hne (by rw [h]; rfl))
    rw [h1]
    exact ⟨_, rfl⟩
  | constInt =>
    cases hs <;> try not_said
    exact ⟨_, num hne⟩
  | uint64 =>
    cases hs <;> try not_said
    exact ⟨_, num hne⟩
  | uint8 =>
    cases hs <;> try not_said
    exact ⟨_, num hne⟩
  | int8 =>
    cases hs <;> try not_said
    exact ⟨_, num hne⟩
  | signature =>
    cases hs <;> try not_said
    exact ⟨_, num' hne⟩
  | addr =>
    cases hs <;> try not_said
    exact ⟨_, num' hne⟩

end Teal
