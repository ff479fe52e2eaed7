import Verif.Spec.Print
import Verif.Lemmas.Text
import Verif.Lemmas.Instr
import Verif.Lemmas.Surplus

/-! Printing instructions and reading them again. -/

namespace Teal
open Spec P Props

theorem _root_.Teal.Spec.Bare.writes {w : Bytes} (h : Bare w) : Writes w w := .bare w h.1 h.2.1 h.2.2.1 h.2.2.2

/-! ## Everything read is valid -/

theorem named_small {w : Bytes} {n : Nat} (h : NamedConst w n) : n < 256 := by
  have h1 : ∀ p ∈ txnTypes, p.1 < 256 := by decide
  have h2 : ∀ p ∈ onCompletions, p.1 < 256 := by decide
  rcases h with ⟨_, h⟩ | ⟨_, h⟩ | h
  · exact h1 _ h
  · exact h1 _ h
  · exact h2 _ h

theorem uint8_lt {s : Bytes} {n : Nat} (h : readUint8 s = some n) : n < 256 := by
  obtain ⟨_, ds, _, _, h⟩ := (C11_uint8 s n).1 h; exact h

theorem int_lt {s : Bytes} {n : Nat} (h : readInt s = some n) : n < 2 ^ 64 := ((C11_int_literal s n).1 h).2

theorem many_one {α : Type} {r : Bytes → Option α} {ws : List Bytes} {n : Nat} {vs : List α}
    (h : Reader.many (oneWord r) n ws = some vs) : ∀ v ∈ vs, ∃ w ∈ ws, r w = some v := by
  induction n generalizing ws vs with
  | zero =>
    cases ws with
    | nil => injection h with h; subst h; simp
    | cons w ws => cases h
  | succ n ih =>
    cases ws with
    | nil => injection h with h; subst h; simp
    | cons w ws =>
      simp only [Reader.many, oneWord] at h
      cases hr : r w with
      | none => rw [hr] at h; cases h
      | some a =>
        rw [hr] at h
        simp only [Option.map_some, Option.map_eq_some_iff] at h
        obtain ⟨as, h1, rfl⟩ := h
        intro v hv
        rcases List.mem_cons.1 hv with rfl | hv
        · exact ⟨w, by simp, hr⟩
        · obtain ⟨x, hx, h2⟩ := ih h1 v hv
          exact ⟨x, by simp [hx], h2⟩

theorem group_lt {g : FieldGroup} {v : Nat} {s : Bytes} {i : Nat} (h : (readField g v s).map (·.field) = some i) : i < 256 := by
  rcases (field_iff g v s i).1 h with ⟨d, hd, -⟩ | ⟨-, -, ds, -, -, h⟩
  · have h1 := (List.getElem?_eq_some_iff.1 hd).1
    have h2 : ∀ g, (documented g).length < 256 := by intro g; cases g <;> decide +kernel
    have := h2 g
    omega
  · exact h

theorem field_lt {r : FieldReader} {v : Nat} {s : Bytes} {i : Nat} (h : (readFieldWith r v s).map (·.field) = some i) : i < 256 := by
  cases r with
  | group g => exact group_lt (g := g) h
  | txn c =>
    have h : (readTxnField c v s).map (·.field) = some i := h
    by_cases hd : ∃ d ∈ txnFields, d.name = s
    · obtain ⟨d, hd, rfl⟩ := hd
      obtain ⟨j, hj⟩ := List.mem_iff_getElem?.1 hd
      have hlt := (List.getElem?_eq_some_iff.1 hj).1
      have hl : txnFields.length < 256 := by decide +kernel
      have : i = j := by
        clear hl hlt
        cases c with
        | txn =>
          rw [C15_txn_version v j d hj] at h
          clear hj
          split at h
          · simpa [eq_comm] using h
          · simp at h
        | itxn =>
          rw [C15_itxn_version v j d hj] at h
          clear hj
          cases hin : d.inner with
          | none => rw [hin] at h; cases h
          | some n =>
            rw [hin] at h
            dsimp only at h
            split at h
            · simpa [eq_comm] using h
            · simp at h
        | txna =>
          rw [C15_txna_partial v j d hj] at h
          clear hj
          split at h
          · simpa [eq_comm] using h
          · simp at h
      omega
    · rw [C16_txn_by_number c v s (fun d h1 h2 => hd ⟨d, h1, h2⟩)] at h
      exact group_lt h

theorem valid_of_eval {addrOk : Bytes → Bool} {sh : Shape} {ver : Nat} {ws : List Bytes} {o : Op} (hw : ∀ x ∈ ws, WordOk x)
    (h : evalShape addrOk sh ver ws = some (o, [])) : Valid addrOk o := by
  have hall : ∀ {α : Type} {r : Bytes → List Bytes → Option (α × List Bytes)} {v : List α},
      Reader.all r ver ws = some (v, []) → Reader.many r ws.length ws = some v := by
    intro α r v h
    unfold Reader.all at h
    obtain ⟨a, h1, h2⟩ := Option.map_eq_some_iff.1 h
    injection h2 with h2
    rw [← h2]; exact h1
  cases sh <;> simp only [evalShape, word_bind, opt_bind, ret_iff] at h
  case plain k => obtain ⟨rfl, rfl⟩ := h; trivial
  case u8 k => obtain ⟨x, xs, n, rfl, h2, rfl, rfl⟩ := h; exact uint8_lt h2
  case u8u8 k => obtain ⟨x, xs, n, rfl, h2, y, ys, m, rfl, h3, rfl, rfl⟩ := h; exact ⟨uint8_lt h2, uint8_lt h3⟩
  case i8 k => obtain ⟨x, xs, n, rfl, h2, rfl, rfl⟩ := h; exact ((C11_int8 _ _).1 h2).2
  case field r k => obtain ⟨x, xs, n, rfl, h2, rfl, rfl⟩ := h; exact field_lt h2
  case fieldIdx k => obtain ⟨x, xs, n, rfl, h2, y, ys, m, rfl, h3, rfl, rfl⟩ := h; exact ⟨field_lt h2, uint8_lt h3⟩
  case fieldOptIdx k k' =>
    obtain ⟨x, xs, n, rfl, h2, h⟩ := h
    rcases h with ⟨rfl, rfl, -⟩ | ⟨y, ys, m, rfl, h3, rfl, rfl⟩
    · exact field_lt h2
    · exact ⟨field_lt h2, uint8_lt h3⟩
  case groupField c k => obtain ⟨x, xs, n, rfl, h2, y, ys, m, rfl, h3, rfl, rfl⟩ := h; exact ⟨uint8_lt h2, field_lt h3⟩
  case gtxn =>
    obtain ⟨x, xs, n, rfl, h2, y, ys, m, rfl, h3, h⟩ := h
    rcases h with ⟨rfl, rfl, -⟩ | ⟨z, zs, i, rfl, h4, rfl, rfl⟩
    · exact ⟨uint8_lt h2, field_lt h3⟩
    · exact ⟨uint8_lt h2, field_lt h3, uint8_lt h4⟩
  case gtxna =>
    obtain ⟨x, xs, n, rfl, h2, y, ys, m, rfl, h3, z, zs, i, rfl, h4, rfl, rfl⟩ := h
    exact ⟨uint8_lt h2, field_lt h3, uint8_lt h4⟩
  case gitxna =>
    obtain ⟨x, xs, n, rfl, h2, y, ys, m, rfl, h3, z, zs, i, rfl, h4, rfl, rfl⟩ := h
    exact ⟨Nat.mod_lt _ (by decide), field_lt h3, uint8_lt h4⟩
  case int =>
    obtain ⟨x, xs, n, rfl, h2, rfl, rfl⟩ := h
    rcases (readConstInt_iff _ _).1 h2 with h | h
    · exact Nat.lt_trans (named_small h) (by decide)
    · exact h.2
  case pushint => obtain ⟨x, xs, n, rfl, h2, rfl, rfl⟩ := h; exact int_lt h2
  case byte => obtain ⟨v, h2, rfl⟩ := any_bind.1 h; trivial
  case pushbytes => obtain ⟨v, h2, rfl⟩ := any_bind.1 h; trivial
  case bytecblock => obtain ⟨v, h2, rfl⟩ := any_bind.1 h; trivial
  case pushbytess => obtain ⟨v, h2, rfl⟩ := any_bind.1 h; trivial
  case intcblock =>
    obtain ⟨v, h2, rfl⟩ := any_bind.1 h
    intro n hn
    obtain ⟨w, -, h3⟩ := many_one (hall h2) n hn
    exact int_lt h3
  case pushints => obtain ⟨v, h2, rfl⟩ := any_bind.1 h; trivial
  case addr =>
    obtain ⟨x, xs, n, rfl, h2, rfl, rfl⟩ := h
    split at h2
    · injection h2 with h2; subst h2; exact ⟨by assumption, hw x (by simp)⟩
    · cases h2
  case method => obtain ⟨x, xs, n, rfl, h2, rfl, rfl⟩ := h; trivial
  case branch k =>
    obtain ⟨x, xs, n, rfl, h2, rfl, rfl⟩ := h
    injection h2 with h2; subst h2
    exact hw x (by simp)
  case switch =>
    obtain ⟨v, h2, rfl⟩ := any_bind.1 h
    rw [(labels_all ver ws v).1 h2] at hw
    exact hw
  case match_ =>
    obtain ⟨v, h2, rfl⟩ := any_bind.1 h
    rw [(labels_all ver ws v).1 h2] at hw
    exact hw
  case replace =>
    rcases h with ⟨rfl, rfl, -⟩ | ⟨x, xs, n, rfl, h2, rfl, rfl⟩
    · trivial
    · exact uint8_lt h2
  case extract =>
    rcases h with ⟨rfl, rfl, -⟩ | ⟨x, xs, n, rfl, h2, y, ys, m, rfl, h3, rfl, rfl⟩
    · trivial
    · exact ⟨uint8_lt h2, uint8_lt h3⟩

theorem valid_of_ops {addrOk : Bytes → Bool} {ver : Nat} {ws : List Bytes} {o : Op} (hw : ∀ x ∈ ws, WordOk x)
    (h : opsOf addrOk ver ws = [o]) : Valid addrOk o := by
  cases ws with
  | nil => injection h with h; subst h; trivial
  | cons w ws =>
    rw [opsOf] at h
    split at h
    · rename_i hcol
      split at h
      · injection h with h; subst h; trivial
      · rename_i hne
        injection h with h
        subst h
        refine ⟨?_, hne⟩
        have : w.dropLast ++ [chColon] = w := by
          rw [List.getLast?_eq_some_iff] at hcol
          obtain ⟨ys, rfl⟩ := hcol
          simp
        rw [this]
        rcases hw w (by simp) with hb | ⟨body, rfl⟩
        · exact hb
        · rw [← List.cons_append, List.getLast?_append] at hcol
          simp [chQuote, chColon] at hcol
    split at h
    · split at h
      · injection h with h; subst h; trivial
      · injection h with h; subst h; trivial
    split at h
    · rename_i e he
      generalize hev : evalShape addrOk e.shape ver ws = ev at h
      match ev, h with
      | none, h => injection h with h; subst h; trivial
      | some (x, []), h =>
        injection h with h; subst h
        exact valid_of_eval (fun x hx => hw x (by simp [hx])) hev
      | some (x, _ :: _), h => simp [readOps] at h
    · injection h with h; subst h; trivial

/-! ## Printed words -/

theorem bare_chars {w : Bytes} (hne : w ≠ []) (h : ∀ x ∈ w, 32 < x ∧ x ≠ 34) (hsl : w.take 2 ≠ [chSlash, chSlash]) : Bare w := by
  refine ⟨hne, ?_, hsl, ?_⟩
  · cases w with
    | nil => simp
    | cons c t => simpa using (h c (by simp)).2
  · intro x hx hs
    have := (h x hx).1
    rcases hs with (rfl | rfl) | (rfl | rfl) <;> revert this <;> decide

theorem bare_noslash {w : Bytes} (hne : w ≠ []) (h : ∀ x ∈ w, 32 < x ∧ x ≠ 34 ∧ x ≠ 47) : Bare w := by
  refine bare_chars hne (fun x hx => ⟨(h x hx).1, (h x hx).2.1⟩) ?_
  cases w with
  | nil => simp
  | cons c t =>
    intro he
    rw [List.take_succ_cons] at he
    injection he with he _
    exact (h c (by simp)).2.2 he

theorem digits_chars {base : Nat} {s : Bytes} {ds : List Nat} (h : PlainDigits base s ds) :
    ∀ x ∈ s, 32 < x ∧ x ≠ 34 ∧ x ≠ 47 := by
  intro x hx
  have hd : ∃ d, digitValue x = some d := by
    have : digitValue x ∈ ds.map some := h.1 ▸ List.mem_map_of_mem hx
    obtain ⟨d, _, h2⟩ := List.mem_map.1 this
    exact ⟨d, h2.symm⟩
  have hb : ∀ x, (digitValue x).isSome = true → 32 < x ∧ x ≠ 34 ∧ x ≠ 47 := by
    apply forall_byte; decide +kernel
  obtain ⟨d, hd⟩ := hd
  exact hb x (by rw [hd]; rfl)

theorem uint_chars (n : Nat) : ∀ x ∈ formatUint n, 32 < x ∧ x ≠ 34 ∧ x ≠ 47 := by
  obtain ⟨ds, h, -⟩ := formatUint_decimal n
  exact digits_chars h

theorem bare_uint (n : Nat) : Bare (formatUint n) := bare_noslash (formatUint_ne_nil n) (uint_chars n)

theorem bare_int (i : Int) : Bare (formatInt i) := by
  cases i with
  | ofNat n => exact bare_uint n
  | negSucc n =>
    refine bare_noslash (by simp [formatInt]) ?_
    intro x hx
    rcases List.mem_cons.1 hx with rfl | hx
    · decide
    · exact uint_chars _ x hx

theorem hexEncode_eq (v : Bytes) : hexEncode v = hexText v := by
  induction v with
  | nil => rfl
  | cons b v ih =>
    rw [hexEncode, ih]
    rfl

theorem bare_hex (v : Bytes) : Bare (b!"0x" ++ hexEncode v) := by
  have h : ∀ x ∈ hexEncode v, 32 < x ∧ x ≠ 34 ∧ x ≠ 47 := by
    have hc : ∀ n, n < 16 → 32 < hexChar n ∧ hexChar n ≠ 34 ∧ hexChar n ≠ 47 := by decide
    induction v with
    | nil => simp [hexEncode]
    | cons b v ih =>
      intro x hx
      have hb := b.toNat_lt
      rcases List.mem_cons.1 hx with rfl | hx
      · exact hc _ (by omega)
      rcases List.mem_cons.1 hx with rfl | hx
      · exact hc _ (by omega)
      · exact ih x hx
  refine bare_noslash (by simp) ?_
  intro x hx
  rcases List.mem_append.1 hx with hx | hx
  · have h0 : ∀ x ∈ b!"0x", 32 < x ∧ x ≠ 34 ∧ x ≠ 47 := by decide
    exact h0 x hx
  · exact h x hx

theorem b64_chars (v : Bytes) : ∀ x ∈ b64Encode v, 32 < x ∧ x ≠ 34 := by
  have hc : ∀ n, n < 64 → 32 < b64Char n ∧ b64Char n ≠ 34 := by decide
  have he : (32 : UInt8) < 61 ∧ (61 : UInt8) ≠ 34 := by decide
  fun_induction b64Encode v with
  | case1 => simp
  | case2 a =>
    have := a.toNat_lt
    simp only [List.mem_cons, List.not_mem_nil, or_false]
    rintro x (rfl | rfl | rfl | rfl)
    · exact hc _ (by omega)
    · exact hc _ (by omega)
    · exact he
    · exact he
  | case3 a b =>
    have := a.toNat_lt
    have := b.toNat_lt
    simp only [List.mem_cons, List.not_mem_nil, or_false]
    rintro x (rfl | rfl | rfl | rfl)
    · exact hc _ (by omega)
    · exact hc _ (by omega)
    · exact hc _ (by omega)
    · exact he
  | case4 a b c s ih =>
    have := a.toNat_lt
    have := b.toNat_lt
    have := c.toNat_lt
    simp only [List.mem_cons]
    rintro x (rfl | rfl | rfl | rfl | h)
    · exact hc _ (by omega)
    · exact hc _ (by omega)
    · exact hc _ (by omega)
    · exact hc _ (by omega)
    · exact ih x h

theorem bare_b64 {v : Bytes} (h : PrintableBytes v) : Bare (b64Encode v) := by
  have hs : ∀ n, n < 64 → b64Char n = 47 → n = 63 := by decide
  refine bare_chars ?_ (b64_chars v) ?_
  · match v, h.1 with
    | [a], _ => simp [b64Encode]
    | [a, b], _ => simp [b64Encode]
    | a :: b :: c :: s, _ => simp [b64Encode]
  · have key : ∀ a b t, v = a :: b :: t → ¬ (b64Char (a.toNat / 4) = 47 ∧ b64Char (a.toNat % 4 * 16 + b.toNat / 16) = 47) := by
      rintro a b t rfl ⟨h1, h2⟩
      have := a.toNat_lt
      have := b.toNat_lt
      have h3 := hs _ (by omega) h1
      have h4 := hs _ (by omega) h2
      have ha : a = 255 := by
        apply UInt8.toNat_inj.1
        show a.toNat = 255
        omega
      have := h.2 b t (by rw [ha])
      have : b.toNat < 240 := this
      omega
    match v, h.1, key with
    | [a], _, _ =>
      intro he
      simp only [b64Encode, List.take_succ_cons, List.take_zero, List.cons.injEq, and_true] at he
      have := a.toNat_lt
      have h3 := hs _ (by omega) he.2
      omega
    | [a, b], _, key =>
      intro he
      simp only [b64Encode, List.take_succ_cons, List.take_zero, List.cons.injEq, and_true] at he
      exact key a b [] rfl he
    | a :: b :: c :: s, _, key =>
      intro he
      simp only [b64Encode, List.take_succ_cons, List.take_zero, List.cons.injEq, and_true] at he
      exact key a b (c :: s) rfl he

theorem b64_read (v : Bytes) (ws : List Bytes) : bytesAt b!"b64" (b64Encode v :: ws) = some (v, ws) := by
  have h : b64Decode (b64Encode v) = some v := by rw [b64Encode_eq]; exact base64_roundtrip v
  unfold bytesAt
  rw [if_neg (by decide), if_neg (by decide), if_neg (by decide), if_neg (by decide), if_pos (by decide)]
  dsimp only
  rw [h]; rfl

theorem hex_read (v : Bytes) (ws : List Bytes) : bytesAt (b!"0x" ++ hexEncode v) ws = some (v, ws) := by
  have h : hexDecode (hexEncode v) = some v := by rw [hexEncode_eq]; exact hexDecode_hexText v
  unfold bytesAt
  rw [if_neg (by simp [hasPrefix]), if_neg (by simp [hasPrefix]), if_pos (by simp [hasPrefix])]
  rw [show (b!"0x" ++ hexEncode v).drop 2 = hexEncode v from rfl, h]; rfl

/-! ## Reading what was printed -/

theorem ops_instr {addrOk : Bytes → Bool} {ver : Nat} {w : Bytes} {ws : List Bytes} {o : Op} {sh : Shape}
    (he : (opsGet w).map (·.shape) = some sh) (h : evalShape addrOk sh ver ws = some (o, [])) : opsOf addrOk ver (w :: ws) = [o] := by
  obtain ⟨e, h1, rfl⟩ := Option.map_eq_some_iff.1 he
  have hn := opsList_names e (opsGet_mem h1).1
  rw [(opsGet_mem h1).2] at hn
  rw [opsOf, if_neg hn.1, if_neg hn.2.2, h1]
  dsimp only
  rw [h]
  rfl

theorem plain_str (k : Plain) : (opsGet k.str).map (·.shape) = some (.plain k) ∧ Bare k.str := by
  cases k <;> decide +kernel
theorem u8_str (k : U8Op) (h : k ≠ .replace2) : (opsGet k.str).map (·.shape) = some (.u8 k) ∧ Bare k.str := by
  revert h; cases k <;> decide +kernel
theorem u8u8_str (k : U8U8Op) : (opsGet k.str).map (·.shape) = some (if k = .extract then .extract else .u8u8 k) ∧ Bare k.str := by
  cases k <;> decide +kernel
theorem i8_str (k : I8Op) : (opsGet k.str).map (·.shape) = some (.i8 k) ∧ Bare k.str := by
  cases k <;> decide +kernel
theorem fieldIdx_str (k : FieldIdxOp) : (opsGet k.str).map (·.shape) = some (.fieldIdx k) ∧ Bare k.str := by
  cases k <;> decide +kernel
theorem branch_str (k : BranchOp) : (opsGet k.str).map (·.shape) = some (.branch k) ∧ Bare k.str := by
  cases k <;> decide +kernel

/-- How the field of an opcode is read. -/
def fieldShape : FieldOp → Shape
  | .txn => .fieldOptIdx .txn .txna
  | .gtxns => .fieldOptIdx .gtxns .gtxnsa
  | .itxn => .field (.txn .txn) .itxn
  | .itxnField => .field (.txn .itxn) .itxnField
  | .txnas => .field (.txn .txna) .txnas
  | .gtxnsas => .field (.txn .txna) .gtxnsas
  | .itxnas => .field (.txn .txna) .itxnas
  | .globalOp => .field (.group .global) .globalOp
  | .assetHoldingGet => .field (.group .assetHolding) .assetHoldingGet
  | .assetParamsGet => .field (.group .assetParams) .assetParamsGet
  | .appParamsGet => .field (.group .appParams) .appParamsGet
  | .acctParamsGet => .field (.group .acctParams) .acctParamsGet
  | .vrfVerify => .field (.group .vrf) .vrfVerify
  | .block => .field (.group .block) .block
  | .ecdsaVerify => .field (.group .ecdsa) .ecdsaVerify
  | .ecdsaPkDecompress => .field (.group .ecdsa) .ecdsaPkDecompress
  | .ecdsaPkRecover => .field (.group .ecdsa) .ecdsaPkRecover
  | .base64Decode => .field (.group .base64) .base64Decode
  | .jsonRef => .field (.group .jsonRef) .jsonRef
  | .ecAdd => .field (.group .ecGroup) .ecAdd
  | .ecScalarMul => .field (.group .ecGroup) .ecScalarMul
  | .ecPairingCheck => .field (.group .ecGroup) .ecPairingCheck
  | .ecMultiExp => .field (.group .ecGroup) .ecMultiExp
  | .ecSubgroupCheck => .field (.group .ecGroup) .ecSubgroupCheck
  | .ecMapTo => .field (.group .ecGroup) .ecMapTo

theorem field_str (k : FieldOp) : (opsGet k.str).map (·.shape) = some (fieldShape k) ∧ Bare k.str := by
  cases k <;> decide +kernel

theorem txn_name {f : Nat} {d : DocTxnField} (h : txnFields[f]? = some d) : FieldGroup.txn.str f = d.name ∧ Bare d.name := by
  obtain ⟨_, _, h1, _⟩ := txnFields_spec f d h
  have : ∀ d ∈ txnFields, Bare d.name := by decide +kernel
  exact ⟨h1, this d (List.mem_of_getElem? h)⟩

theorem group_name {g : FieldGroup} {f : Nat} {d : DocField} (h : (documented g)[f]? = some d) : g.str f = d.name ∧ Bare d.name := by
  have : ∀ d ∈ documented g, Bare d.name := by cases g <;> decide +kernel
  exact ⟨C16_print_name g f d h, this d (List.mem_of_getElem? h)⟩

theorem read_txn {f ver : Nat} {d : DocTxnField} (h : txnFields[f]? = some d) (hs : d.since ≤ ver) :
    (readFieldWith (.txn .txn) ver d.name).map (·.field) = some f := by
  show (readTxnField .txn ver d.name).map _ = _
  rw [C15_txn_version ver f d h, if_pos hs]; rfl

theorem read_array {f ver : Nat} {d : DocTxnField} (h : txnFields[f]? = some d) (hs : d.array = true) :
    (readFieldWith (.txn .txna) ver d.name).map (·.field) = some f := by
  show (readTxnField .txna ver d.name).map _ = _
  rw [C15_txna_partial ver f d h, if_pos hs]; rfl

theorem read_inner {f ver n : Nat} {d : DocTxnField} (h : txnFields[f]? = some d) (hs : d.inner = some n) (hn : n ≤ ver) :
    (readFieldWith (.txn .itxn) ver d.name).map (·.field) = some f := by
  show (readTxnField .itxn ver d.name).map _ = _
  rw [C15_itxn_version ver f d h, hs]
  dsimp only
  rw [if_pos hn]; rfl

theorem read_group {g : FieldGroup} {f ver : Nat} {d : DocField} (h : (documented g)[f]? = some d) (hs : d.since ≤ ver) :
    (readFieldWith (.group g) ver d.name).map (·.field) = some f := by
  show (readField g ver d.name).map _ = _
  rw [C15_field_version g ver f d h, if_pos hs]; rfl

/-- Names of fields are no numbers. -/
theorem uint_no_name (n : Nat) : (∀ g, ∀ d ∈ documented g, d.name ≠ formatUint n) ∧ ∀ d ∈ txnFields, d.name ≠ formatUint n := by
  have hd : ∀ x ∈ formatUint n, x < 58 := by
    obtain ⟨ds, h, -⟩ := formatUint_decimal n
    intro x hx
    have : digitValue x ∈ ds.map some := h.1 ▸ List.mem_map_of_mem hx
    obtain ⟨d, h1, h2⟩ := List.mem_map.1 this
    have hlt := h.2 d h1
    have hb : ∀ x, (digitValue x).getD 10 < 10 → x < 58 := by apply forall_byte; decide +kernel
    exact hb x (by rw [← h2]; exact hlt)
  have h1 : ∀ g, ∀ d ∈ documented g, ∃ x ∈ d.name, 58 ≤ x := by intro g; cases g <;> decide +kernel
  have h2 : ∀ d ∈ txnFields, ∃ x ∈ d.name, 58 ≤ x := by decide +kernel
  refine ⟨fun g d h he => ?_, fun d h he => ?_⟩
  · obtain ⟨x, hx, h3⟩ := h1 g d h
    have := hd x (he ▸ hx)
    exact absurd this (UInt8.not_lt.2 h3)
  · obtain ⟨x, hx, h3⟩ := h2 d h
    have := hd x (he ▸ hx)
    exact absurd this (UInt8.not_lt.2 h3)

theorem read_number {r : FieldReader} {f ver : Nat} (hf : f < 256) : (readFieldWith r ver (formatUint f)).map (·.field) = some f := by
  have key : ∀ g, (readField g ver (formatUint f)).map (·.field) = some f := by
    intro g
    refine (field_iff g ver _ f).2 (.inr ⟨(uint_no_name f).1 g, ?_⟩)
    exact (C11_uint8 _ _).1 (C11_uint8_print_read f hf)
  cases r with
  | group g => exact key g
  | txn c =>
    show (readTxnField c ver (formatUint f)).map _ = _
    rw [C16_txn_by_number c ver _ (uint_no_name f).2]
    exact key .txn

/-- The words of a printed instruction. -/
theorem field_reread {addrOk : Bytes → Bool} {k : FieldOp} {f ver : Nat} (hf : f < 256) (hp : PrintableField ver k f) :
    Bare (printField k.printGroup f) ∧ opsOf addrOk ver [k.str, printField k.printGroup f] = [.field k f] := by
  have hnum : k.printGroup = none → (∃ r, fieldShape k = .field r k) →
      Bare (printField k.printGroup f) ∧ opsOf addrOk ver [k.str, printField k.printGroup f] = [.field k f] := by
    rintro h ⟨r, hr⟩
    rw [h]
    refine ⟨bare_uint f, ops_instr (field_str k).1 ?_⟩
    rw [hr]
    simp only [evalShape, word_bind, ret_iff]
    exact ⟨_, _, _, rfl, read_number hf, rfl, rfl⟩
  have hname : ∀ g, k.printGroup = some g → fieldShape k = .field (.group g) k → Named (documented g) ver f →
      Bare (printField k.printGroup f) ∧ opsOf addrOk ver [k.str, printField k.printGroup f] = [.field k f] := by
    rintro g h hr ⟨d, hd, hs⟩
    rw [h]
    show Bare (g.str f) ∧ opsOf addrOk ver [k.str, g.str f] = _
    rw [(group_name hd).1]
    refine ⟨(group_name hd).2, ops_instr (field_str k).1 ?_⟩
    rw [hr]
    simp only [evalShape, word_bind, ret_iff]
    exact ⟨_, _, _, rfl, read_group hd hs, rfl, rfl⟩
  have htxn : ∀ c d, k.printGroup = some .txn → fieldShape k = .field (.txn c) k → txnFields[f]? = some d →
      (readFieldWith (.txn c) ver d.name).map (·.field) = some f →
      Bare (printField k.printGroup f) ∧ opsOf addrOk ver [k.str, printField k.printGroup f] = [.field k f] := by
    intro c d h hr hd hread
    rw [h]
    show Bare (FieldGroup.txn.str f) ∧ opsOf addrOk ver [k.str, FieldGroup.txn.str f] = _
    rw [(txn_name hd).1]
    refine ⟨(txn_name hd).2, ops_instr (field_str k).1 ?_⟩
    rw [hr]
    simp only [evalShape, word_bind, ret_iff]
    exact ⟨_, _, _, rfl, hread, rfl, rfl⟩
  have hopt : ∀ k', k.printGroup = some .txn → fieldShape k = .fieldOptIdx k k' → TxnNamed ver f →
      Bare (printField k.printGroup f) ∧ opsOf addrOk ver [k.str, printField k.printGroup f] = [.field k f] := by
    rintro k' h hr ⟨d, hd, hs⟩
    rw [h]
    show Bare (FieldGroup.txn.str f) ∧ opsOf addrOk ver [k.str, FieldGroup.txn.str f] = _
    rw [(txn_name hd).1]
    refine ⟨(txn_name hd).2, ops_instr (field_str k).1 ?_⟩
    rw [hr]
    simp only [evalShape, word_bind, opt_bind, ret_iff]
    exact ⟨_, _, _, rfl, read_txn hd hs, by simp⟩
  cases k
  case txn => exact hopt _ rfl rfl hp
  case gtxns => exact hopt _ rfl rfl hp
  case itxn => obtain ⟨d, hd, hs⟩ := hp; exact htxn .txn d rfl rfl hd (read_txn hd hs)
  case itxnField => obtain ⟨d, n, hd, hs, hn⟩ := hp; exact htxn .itxn d rfl rfl hd (read_inner hd hs hn)
  case txnas => obtain ⟨d, hd, hs⟩ := hp; exact htxn .txna d rfl rfl hd (read_array hd hs)
  case gtxnsas => obtain ⟨d, hd, hs⟩ := hp; exact htxn .txna d rfl rfl hd (read_array hd hs)
  case itxnas => obtain ⟨d, hd, hs⟩ := hp; exact htxn .txna d rfl rfl hd (read_array hd hs)
  all_goals first
    | exact hname _ rfl rfl hp
    | exact hnum rfl ⟨_, rfl⟩

theorem lineText_join (ws : List Bytes) : lineText ws = joinSpace ws := by
  induction ws with
  | nil => rfl
  | cons w ws ih =>
    cases ws with
    | nil => rfl
    | cons x xs => simp only [lineText, joinSpace] at ih ⊢; rw [ih]

theorem lineText_cons (w : Bytes) {ws : List Bytes} (h : ws ≠ []) : lineText (w :: ws) = w ++ chSpace :: lineText ws := by
  cases ws with
  | nil => exact absurd rfl h
  | cons x xs => rfl

/-- Arrays of words that take one word each. -/
theorem all_map {α : Type} {r : Bytes → Option α} (f : α → Bytes) (ver : Nat) {vs : List α} (h : ∀ v ∈ vs, r (f v) = some v) :
    Reader.all (oneWord r) ver (vs.map f) = some (vs, []) := by
  have key : ∀ n, vs.length ≤ n → Reader.many (oneWord r) n (vs.map f) = some vs := by
    induction vs with
    | nil => intro n _; cases n <;> rfl
    | cons v vs ih =>
      intro n hn
      cases n with
      | zero => simp at hn
      | succ n =>
        simp only [List.map_cons, Reader.many, oneWord]
        rw [h v (by simp)]
        dsimp only [Option.map_some]
        rw [ih (fun x hx => h x (by simp [hx])) n (by simpa using hn)]
        rfl
  unfold Reader.all
  rw [List.length_map, key _ (Nat.le_refl _)]
  rfl

theorem all_hex (ver : Nat) (vs : List Bytes) :
    Reader.all bytesAt ver (vs.map fun v => b!"0x" ++ hexEncode v) = some (vs, []) := by
  have key : ∀ n, vs.length ≤ n → Reader.many bytesAt n (vs.map fun v => b!"0x" ++ hexEncode v) = some vs := by
    induction vs with
    | nil => intro n _; cases n <;> rfl
    | cons v vs ih =>
      intro n hn
      cases n with
      | zero => simp at hn
      | succ n =>
        rw [List.map_cons, Reader.many, hex_read]
        dsimp only
        rw [ih n (by simpa using hn)]
        rfl
  unfold Reader.all
  rw [List.length_map, key _ (Nat.le_refl _)]
  rfl

theorem all_b64 (ver : Nat) (vs : List Bytes) :
    Reader.all bytesAt ver (vs.flatMap fun v => [b!"b64", b64Encode v]) = some (vs, []) := by
  have key : ∀ n, vs.length ≤ n → Reader.many bytesAt n (vs.flatMap fun v => [b!"b64", b64Encode v]) = some vs := by
    induction vs with
    | nil => intro n _; cases n <;> rfl
    | cons v vs ih =>
      intro n hn
      cases n with
      | zero => simp at hn
      | succ n =>
        rw [List.flatMap_cons, List.cons_append, List.cons_append, List.nil_append, Reader.many, b64_read]
        dsimp only
        rw [ih n (by simpa using hn)]
        rfl
  unfold Reader.all
  rw [key _ (by simp only [List.length_flatMap, List.length_cons, List.length_nil, List.map_const', List.sum_replicate_nat]; omega)]
  rfl

theorem join_b64 {vs : List Bytes} : lineText (vs.flatMap fun v => [b!"b64", b64Encode v]) = joinSpace (vs.map bytesStr) := by
  induction vs with
  | nil => rfl
  | cons v vs ih =>
    cases vs with
    | nil => simp [lineText, joinSpace, bytesStr, chSpace]
    | cons u us =>
      rw [List.flatMap_cons, List.cons_append, List.cons_append, List.nil_append, lineText_cons _ (by simp),
        lineText_cons _ (by simp), ih]
      show _ = joinSpace (bytesStr v :: bytesStr u :: us.map bytesStr)
      rw [show ∀ a b c, joinSpace (a :: b :: c) = a ++ chSpace :: joinSpace (b :: c) from fun _ _ _ => rfl]
      simp [bytesStr, chSpace]

theorem any_read {α : Type} {m : Reader α} {g : α → Op} {ver : Nat} {ws : List Bytes} {v : α} (h : m ver ws = some (v, [])) :
    (m.bind fun a => .ret (g a)) ver ws = some (g v, []) := by
  unfold Reader.bind
  rw [h]
  rfl

theorem bare_label {l : Bytes} (h : WordOk l) (hq : Unquoted l) : Bare l := by
  rcases h with h | ⟨b, rfl⟩
  · exact h
  · exact absurd rfl hq

/-- What a line of words is printed as, and read as. -/
def Reread (addrOk : Bytes → Bool) (ver : Nat) (o : Op) : Prop :=
  ∃ ws, o.str = lineText ws ∧ (∀ w ∈ ws, Bare w) ∧ opsOf addrOk ver ws = [o]

theorem reread_words {addrOk : Bytes → Bool} {ver : Nat} {o : Op} {w : Bytes} {ws : List Bytes} {sh : Shape}
    (he : (opsGet w).map (·.shape) = some sh) (h : evalShape addrOk sh ver ws = some (o, [])) (hw : Bare w) (hws : ∀ w ∈ ws, Bare w)
    (hs : o.str = lineText (w :: ws)) : Reread addrOk ver o :=
  ⟨w :: ws, hs, by simpa using ⟨hw, hws⟩, ops_instr he h⟩

theorem reread (addrOk : Bytes → Bool) (ver : Nat) (o : Op) (hv : Valid addrOk o) (hp : Printable ver o)
    (hpr : ∀ v, o = .pragma v → 1 ≤ v ∧ v < 256) : Reread addrOk ver o := by
  cases o with
  | empty => exact ⟨[], rfl, by simp, rfl⟩
  | label n =>
    refine ⟨[n ++ [chColon]], rfl, by simpa using hv.1, ?_⟩
    rw [opsOf, if_pos (by simp), if_neg (by simpa using hv.2)]
    simp
  | pragma v =>
    have h1 := hpr v rfl
    refine ⟨[b!"#pragma", b!"version", formatUint v], by simp [Op.str, lineText, chSpace], ?_, ?_⟩
    · intro w hw
      simp only [List.mem_cons, List.not_mem_nil, or_false] at hw
      rcases hw with rfl | rfl | rfl
      · decide
      · decide
      · exact bare_uint v
    · have hr : readInt (formatUint v) = some v := (C11_print_read v (by omega)).2
      rw [opsOf, if_neg (by decide), if_pos rfl]
      simp only [pragmaOf]
      rw [hr]
      simp only [if_true]
      rw [if_neg (by omega)]
      simp only [List.cons.injEq, Op.pragma.injEq, and_true]
      omega
  | comment t => exact hv.elim
  | plain k => exact reread_words (plain_str k).1 (ws := []) (by simp [evalShape, ret_iff]) (plain_str k).2 (by simp) rfl
  | u8 k n =>
    exact reread_words (u8_str k hp).1 (ws := [formatUint n])
      (by simp only [evalShape, word_bind, ret_iff]; exact ⟨_, _, _, rfl, C11_uint8_print_read n hv, rfl, rfl⟩)
      (u8_str k hp).2 (by simpa using bare_uint n) rfl
  | u8u8 k m n =>
    refine reread_words (u8u8_str k).1 (ws := [formatUint m, formatUint n]) ?_ (u8u8_str k).2 (by simpa using ⟨bare_uint m, bare_uint n⟩) rfl
    have h1 := C11_uint8_print_read m hv.1
    have h2 := C11_uint8_print_read n hv.2
    by_cases hk : k = .extract
    · rw [if_pos hk]
      subst hk
      simp only [evalShape, opt_bind]
      simp [h1, word_bind, ret_iff, h2]
    · rw [if_neg hk]
      simp only [evalShape, word_bind, ret_iff]
      exact ⟨_, _, _, rfl, h1, _, _, _, rfl, h2, rfl, rfl⟩
  | i8 k i =>
    exact reread_words (i8_str k).1 (ws := [formatInt i])
      (by simp only [evalShape, word_bind, ret_iff]; exact ⟨_, _, _, rfl, C11_int8_print_read i hv.1 hv.2, rfl, rfl⟩)
      (i8_str k).2 (by simpa using bare_int i) rfl
  | field k f =>
    have h := field_reread (addrOk := addrOk) hv hp
    exact ⟨[k.str, printField k.printGroup f], rfl, by simpa using ⟨(field_str k).2, h.1⟩, h.2⟩
  | fieldIdx k f i =>
    have hi := C11_uint8_print_read i hv.2
    have hnm : TxnArray f → (Op.fieldIdx k f i).str = lineText [k.str, FieldGroup.txn.str f, formatUint i] → Reread addrOk ver (.fieldIdx k f i) := by
      rintro ⟨d, hd, hs⟩ hstr
      rw [(txn_name hd).1] at hstr
      refine reread_words (fieldIdx_str k).1 ?_ (fieldIdx_str k).2 (by simpa using ⟨(txn_name hd).2, bare_uint i⟩) hstr
      simp only [evalShape, word_bind, ret_iff]
      exact ⟨_, _, _, rfl, read_array hd hs, _, _, _, rfl, hi, rfl, rfl⟩
    cases k with
    | txna => exact hnm (by simpa [Printable] using hp) rfl
    | gtxnsa => exact hnm (by simpa [Printable] using hp) rfl
    | itxna =>
      refine reread_words (fieldIdx_str .itxna).1 (ws := [formatUint f, formatUint i]) ?_ (fieldIdx_str _).2
        (by simpa using ⟨bare_uint f, bare_uint i⟩) rfl
      simp only [evalShape, word_bind, ret_iff]
      exact ⟨_, _, _, rfl, read_number hv.1, _, _, _, rfl, hi, rfl, rfl⟩
  | groupField k t f =>
    have ht := C11_uint8_print_read t hv.1
    cases k with
    | gtxn =>
      obtain ⟨d, hd, hs⟩ := hp
      refine reread_words (w := b!"gtxn") (sh := .gtxn) (ws := [formatUint t, d.name]) (by decide +kernel) ?_ (by decide)
        (by simpa using ⟨bare_uint t, (txn_name hd).2⟩) (by rw [← (txn_name hd).1]; rfl)
      simp only [evalShape, word_bind, opt_bind, ret_iff]
      exact ⟨_, _, _, rfl, ht, _, _, _, rfl, read_txn hd hs, by simp⟩
    | gitxn =>
      obtain ⟨d, hd, hs⟩ := hp
      refine reread_words (w := b!"gitxn") (sh := .groupField .txn .gitxn) (ws := [formatUint t, d.name]) (by decide +kernel) ?_ (by decide)
        (by simpa using ⟨bare_uint t, (txn_name hd).2⟩) (by rw [← (txn_name hd).1]; rfl)
      simp only [evalShape, word_bind, ret_iff]
      exact ⟨_, _, _, rfl, ht, _, _, _, rfl, read_txn hd hs, rfl, rfl⟩
    | gtxnas => exact hp.elim
    | gitxnas =>
      obtain ⟨d, hd, hs⟩ := hp
      refine reread_words (w := b!"gitxnas") (sh := .groupField .txna .gitxnas) (ws := [formatUint t, d.name]) (by decide +kernel) ?_ (by decide)
        (by simpa using ⟨bare_uint t, (txn_name hd).2⟩) (by rw [← (txn_name hd).1]; rfl)
      simp only [evalShape, word_bind, ret_iff]
      exact ⟨_, _, _, rfl, ht, _, _, _, rfl, read_array hd hs, rfl, rfl⟩
  | groupFieldIdx k t f i =>
    have ht := C11_uint8_print_read t hv.1
    have hi := C11_uint8_print_read i hv.2.2
    obtain ⟨d, hd, hs⟩ := hp
    cases k with
    | gtxna =>
      refine reread_words (w := b!"gtxna") (sh := .gtxna) (ws := [formatUint t, d.name, formatUint i]) (by decide +kernel) ?_ (by decide)
        (by simpa using ⟨bare_uint t, (txn_name hd).2, bare_uint i⟩) (by rw [← (txn_name hd).1]; rfl)
      simp only [evalShape, word_bind, ret_iff]
      exact ⟨_, _, _, rfl, ht, _, _, _, rfl, read_array hd hs, _, _, _, rfl, hi, rfl, rfl⟩
    | gitxna =>
      have ht := (C11_print_read t (by have := hv.1; omega)).2
      refine reread_words (w := b!"gitxna") (sh := .gitxna) (ws := [formatUint t, d.name, formatUint i]) (by decide +kernel) ?_ (by decide)
        (by simpa using ⟨bare_uint t, (txn_name hd).2, bare_uint i⟩) (by rw [← (txn_name hd).1]; rfl)
      simp only [evalShape, word_bind, ret_iff]
      exact ⟨_, _, _, rfl, ht, _, _, _, rfl, read_array hd hs, _, _, _, rfl, hi, by rw [Nat.mod_eq_of_lt hv.1], rfl⟩
  | int v =>
    refine reread_words (w := b!"int") (sh := .int) (ws := [formatUint v]) (by decide +kernel) ?_ (by decide) (by simpa using bare_uint v) rfl
    simp only [evalShape, word_bind, ret_iff]
    have h1 : readConstInt (formatUint v) = some v :=
      (readConstInt_iff _ _).2 (.inr ((C11_int_literal _ _).1 (C11_print_read v hv).2))
    exact ⟨_, _, _, rfl, h1, rfl, rfl⟩
  | pushint v =>
    refine reread_words (w := b!"pushint") (sh := .pushint) (ws := [formatUint v]) (by decide +kernel) ?_ (by decide) (by simpa using bare_uint v) rfl
    simp only [evalShape, word_bind, ret_iff]
    exact ⟨_, _, _, rfl, (C11_print_read v hv).2, rfl, rfl⟩
  | byte v =>
    refine reread_words (w := b!"byte") (sh := .byte) (ws := [b!"b64", b64Encode v]) (by decide +kernel) ?_ (by decide)
      (by simpa using ⟨by decide, bare_b64 hp⟩) (by simp [Op.str, bytesStr, lineText, chSpace])
    exact any_read (b64_read v [])
  | pushbytes v =>
    refine reread_words (w := b!"pushbytes") (sh := .pushbytes) (ws := [b!"b64", b64Encode v]) (by decide +kernel) ?_ (by decide)
      (by simpa using ⟨by decide, bare_b64 hp⟩) (by simp [Op.str, bytesStr, lineText, chSpace])
    exact any_read (b64_read v [])
  | addr a =>
    refine reread_words (w := b!"addr") (sh := .addr) (ws := [a]) (by decide +kernel) ?_ (by decide)
      (by simpa using bare_label hv.2 hp) (by simp [Op.str, lineText, chSpace])
    simp only [evalShape, word_bind, ret_iff]
    exact ⟨_, _, _, rfl, by rw [if_pos hv.1], rfl, rfl⟩
  | method s => exact hp.elim
  | intcblock vs =>
    refine reread_words (w := b!"intcblock") (sh := .intcblock) (ws := vs.map formatUint) (by decide +kernel) ?_ (by decide)
      (by simpa using fun v _ => bare_uint v) ?_
    · exact any_read (all_map formatUint ver fun v h => (C11_print_read v (hv v h)).2)
    · cases vs with
      | nil => rfl
      | cons v vs => rw [lineText_cons _ (by simp), lineText_join]; simp [Op.str, chSpace]
  | pushints vs => exact hp.elim
  | bytecblock vs =>
    refine reread_words (w := b!"bytecblock") (sh := .bytecblock) (ws := vs.map fun v => b!"0x" ++ hexEncode v) (by decide +kernel) ?_ (by decide)
      (by simpa using fun v _ => bare_hex v) ?_
    · exact any_read (all_hex ver vs)
    · cases vs with
      | nil => rfl
      | cons v vs => rw [lineText_cons _ (by simp), lineText_join]; simp [Op.str, chSpace]
  | pushbytess vs =>
    refine reread_words (w := b!"pushbytess") (sh := .pushbytess) (ws := vs.flatMap fun v => [b!"b64", b64Encode v]) (by decide +kernel) ?_ (by decide)
      ?_ ?_
    · exact any_read (all_b64 ver vs)
    · intro w hw
      obtain ⟨v, h1, h2⟩ := List.mem_flatMap.1 hw
      simp only [List.mem_cons, List.not_mem_nil, or_false] at h2
      rcases h2 with rfl | rfl
      · decide
      · exact bare_b64 (hp.2 v h1)
    · rw [lineText_cons, join_b64]
      · simp [Op.str, chSpace]
      · cases vs with
        | nil => exact absurd rfl hp.1
        | cons v vs => simp
  | branch k l =>
    refine reread_words (branch_str k).1 (ws := [l]) ?_ (branch_str k).2 (by simpa using bare_label hv hp) rfl
    simp only [evalShape, word_bind, ret_iff]
    exact ⟨_, _, _, rfl, rfl, rfl, rfl⟩
  | switch ls =>
    refine reread_words (w := b!"switch") (sh := .switch) (ws := ls) (by decide +kernel) ?_ (by decide)
      (fun l h => bare_label (hv l h) (hp l h)) ?_
    · exact any_read ((labels_all ver ls ls).2 rfl)
    · cases ls with
      | nil => rfl
      | cons v vs => rw [lineText_cons _ (by simp), lineText_join]; simp [Op.str, chSpace]
  | match_ ls =>
    refine reread_words (w := b!"match") (sh := .match_) (ws := ls) (by decide +kernel) ?_ (by decide)
      (fun l h => bare_label (hv l h) (hp l h)) ?_
    · exact any_read ((labels_all ver ls ls).2 rfl)
    · cases ls with
      | nil => rfl
      | cons v vs => rw [lineText_cons _ (by simp), lineText_join]; simp [Op.str, chSpace]

end Teal
