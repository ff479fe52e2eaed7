import Verif.Lemmas.Literals
import Verif.Lemmas.Fields

/-!
# Properties C11–C13, C15, C16: integer literals, named constants, string literals, fields
-/

namespace Teal.Props

open Teal Spec

/-! ## C11 -/

/-- **C11** A text is read as the integer `n` exactly when it is an integer literal for `n`
and `n` fits 64 bits. -/
theorem C11_int_literal (s : Bytes) (n : Nat) :
    readInt s = some n ↔ IntLiteral s n ∧ n < 2 ^ 64 :=
  parseUint0_iff 64 (Nat.le_refl _) s n

/-- **C11** An integer literal denotes one number only. -/
theorem C11_unambiguous (s : Bytes) (n m : Nat) (hn : IntLiteral s n) (hm : IntLiteral s m)
    (h1 : n < 2 ^ 64) (h2 : m < 2 ^ 64) : n = m := by
  have a := (C11_int_literal s n).2 ⟨hn, h1⟩
  have b := (C11_int_literal s m).2 ⟨hm, h2⟩
  rw [a] at b
  exact Option.some.inj b

/-- **C11** What is printed for a 64-bit integer is its decimal spelling, and reading it gives
the integer back. -/
theorem C11_print_read (n : Nat) (h : n < 2 ^ 64) :
    DecimalOf n (formatUint n) ∧ readInt (formatUint n) = some n :=
  ⟨formatUint_decimal n, readInt_formatUint n h⟩

/-- **C11** One-byte immediates are plain decimal digits for a number below 256. -/
theorem C11_uint8 (s : Bytes) (n : Nat) :
    readUint8 s = some n ↔ s ≠ [] ∧ ∃ ds, PlainDigits 10 s ds ∧ n = numeral 10 ds ∧ n < 256 :=
  parseUintBase_iff 10 8 (by decide) (by decide) (by decide) s n

/-- **C11** Printing and reading one-byte immediates. -/
theorem C11_uint8_print_read (n : Nat) (h : n < 256) : readUint8 (formatUint n) = some n :=
  parseUintBase_formatUint 8 n (by decide) h

theorem plainDigits_no_sign {c : UInt8} {t : Bytes} {ds : List Nat}
    (h : PlainDigits 10 (c :: t) ds) : c ≠ 43 ∧ c ≠ 45 := by
  have key : ∀ c : UInt8, c = 43 ∨ c = 45 → digitValue c = none := by
    rintro c (rfl | rfl) <;> decide
  obtain ⟨h1, _⟩ := h
  cases ds with
  | nil => simp at h1
  | cons d ds =>
    simp only [List.map_cons, List.cons.injEq] at h1
    constructor
    · intro hc
      rw [key c (Or.inl hc)] at h1
      simp at h1
    · intro hc
      rw [key c (Or.inr hc)] at h1
      simp at h1

/-- **C11** Signed one-byte immediates: exactly the signed decimals from -128 to 127. -/
theorem C11_int8 (s : Bytes) (i : Int) :
    readInt8 s = some i ↔ SignedDecimal s i ∧ -128 ≤ i ∧ i ≤ 127 := by
  unfold readInt8
  cases s with
  | nil =>
    simp only [parseIntBase]
    constructor
    · intro h; cases h
    · rintro ⟨⟨digits, ds, h0, _, (h | h | h)⟩, _⟩
      · exact absurd h.1.symm h0
      · exact absurd h.1 (by simp)
      · exact absurd h.1 (by simp)
  | cons c t =>
    have core : ∀ (digits : Bytes) (un : Nat), parseUintBase 10 8 digits = some un ↔
        digits ≠ [] ∧ ∃ ds, PlainDigits 10 digits ds ∧ un = numeral 10 ds ∧ un < 256 :=
      fun digits un => parseUintBase_iff 10 8 (by decide) (by decide) (by decide) digits un
    by_cases hneg : c = 45
    · subst hneg
      have e : parseIntBase 10 8 (45 :: t) = match parseUintBase 10 8 t with
          | none => none
          | some un => if un > 128 then none else some (- (un : Int)) := by
        simp only [parseIntBase]
        simp
        cases parseUintBase 10 8 t <;> rfl
      rw [e]
      constructor
      · intro h
        cases hp : parseUintBase 10 8 t with
        | none => rw [hp] at h; simp at h
        | some un =>
          rw [hp] at h
          simp only at h
          obtain ⟨h0, ds, h1, h2, h3⟩ := (core t un).1 hp
          by_cases hg : un > 128
          · rw [if_pos hg] at h; cases h
          · rw [if_neg hg] at h
            have hi := Option.some.inj h
            subst hi
            refine ⟨⟨t, ds, h0, h1, Or.inr (Or.inr ⟨rfl, by rw [h2]⟩)⟩, by omega, by omega⟩
      · rintro ⟨⟨digits, ds, h0, h1, h2⟩, h3, h4⟩
        rcases h2 with ⟨h2, _⟩ | ⟨h2, _⟩ | ⟨h2, h5⟩
        · subst h2; exact absurd rfl (plainDigits_no_sign h1).2
        · exact absurd h2 (by simp)
        · have : t = digits := by simpa using h2
          subst this
          have hp := (core t (numeral 10 ds)).2 ⟨h0, ds, h1, rfl, by omega⟩
          rw [hp]
          simp only
          rw [if_neg (by omega), h5]
    · by_cases hpos : c = 43
      · subst hpos
        have e : parseIntBase 10 8 (43 :: t) = match parseUintBase 10 8 t with
            | none => none
            | some un => if un ≥ 128 then none else some (un : Int) := by
          simp only [parseIntBase]
          simp
          cases parseUintBase 10 8 t <;> rfl
        rw [e]
        constructor
        · intro h
          cases hp : parseUintBase 10 8 t with
          | none => rw [hp] at h; simp at h
          | some un =>
            rw [hp] at h
            simp only at h
            obtain ⟨h0, ds, h1, h2, h3⟩ := (core t un).1 hp
            by_cases hg : un ≥ 128
            · rw [if_pos hg] at h; cases h
            · rw [if_neg hg] at h
              have hi := Option.some.inj h
              subst hi
              refine ⟨⟨t, ds, h0, h1, Or.inr (Or.inl ⟨rfl, by rw [h2]⟩)⟩, by omega, by omega⟩
        · rintro ⟨⟨digits, ds, h0, h1, h2⟩, h3, h4⟩
          rcases h2 with ⟨h2, _⟩ | ⟨h2, h5⟩ | ⟨h2, _⟩
          · subst h2; exact absurd rfl (plainDigits_no_sign h1).1
          · have : t = digits := by simpa using h2
            subst this
            have hp := (core t (numeral 10 ds)).2 ⟨h0, ds, h1, rfl, by omega⟩
            rw [hp]
            simp only
            rw [if_neg (by omega), h5]
          · exact absurd h2 (by simp)
      · have e : parseIntBase 10 8 (c :: t) = match parseUintBase 10 8 (c :: t) with
            | none => none
            | some un => if un ≥ 128 then none else some (un : Int) := by
          simp only [parseIntBase]
          simp [hneg, hpos]
          cases parseUintBase 10 8 (c :: t) <;> rfl
        rw [e]
        constructor
        · intro h
          cases hp : parseUintBase 10 8 (c :: t) with
          | none => rw [hp] at h; simp at h
          | some un =>
            rw [hp] at h
            simp only at h
            obtain ⟨h0, ds, h1, h2, h3⟩ := (core (c :: t) un).1 hp
            by_cases hg : un ≥ 128
            · rw [if_pos hg] at h; cases h
            · rw [if_neg hg] at h
              have hi := Option.some.inj h
              subst hi
              refine ⟨⟨c :: t, ds, h0, h1, Or.inl ⟨rfl, by rw [h2]⟩⟩, by omega, by omega⟩
        · rintro ⟨⟨digits, ds, h0, h1, h2⟩, h3, h4⟩
          rcases h2 with ⟨h2, h5⟩ | ⟨h2, _⟩ | ⟨h2, _⟩
          · subst h2
            have hp := (core (c :: t) (numeral 10 ds)).2 ⟨h0, ds, h1, rfl, by omega⟩
            rw [hp]
            simp only
            rw [if_neg (by omega), h5]
          · exact absurd (List.cons.inj h2).1 hpos
          · exact absurd (List.cons.inj h2).1 hneg

/-- **C11** Printing and reading signed one-byte immediates. -/
theorem C11_int8_print_read (i : Int) (h1 : -128 ≤ i) (h2 : i ≤ 127) :
    readInt8 (formatInt i) = some i := by
  rw [C11_int8]
  refine ⟨?_, h1, h2⟩
  cases i with
  | ofNat n =>
    obtain ⟨ds, a, b, c, _⟩ := formatUint_decimal n
    exact ⟨formatUint n, ds, c, a, Or.inl ⟨rfl, by rw [b]; rfl⟩⟩
  | negSucc n =>
    obtain ⟨ds, a, b, c, _⟩ := formatUint_decimal (n + 1)
    exact ⟨formatUint (n + 1), ds, c, a, Or.inr (Or.inr ⟨rfl, by rw [b]; rfl⟩)⟩

example : readInt b!"0x_fF" = some 255 := by decide +kernel
example : readInt b!"18446744073709551615" = some 18446744073709551615 := by decide +kernel
example : readInt b!"18446744073709551616" = none := by decide +kernel
example : readInt b!"1__0" = none := by decide +kernel
example : IntLiteral b!"0b101" 5 :=
  .prefixed 2 98 49 b!"01" [1, 0, 1] (by simp [baseLetter])
    (.digit _ _ _ _ _ rfl (by decide) (.digit _ _ _ _ _ rfl (by decide)
      (.digit _ _ _ _ _ rfl (by decide) (.nil _))))
example : readInt8 b!"-128" = some (-128) := by decide +kernel
example : readInt8 b!"128" = none := by decide +kernel

/-! ## C12 -/

/-- **C12** What `int` and friends accept: the protocol's names, with the protocol's numbers,
and integer literals; whatever order the start-up code visits its map in. -/
theorem C12_const_int (order : List (Bytes × Bytes)) (ho : order.Perm typeNameDescriptions)
    (s : Bytes) (n : Nat) :
    readConstIntIn order s = some n ↔ NamedConst s n ∨ (IntLiteral s n ∧ n < 2 ^ 64) := by
  rw [readConstIntIn_eq order ho]
  exact readConstInt_iff s n

/-- **C12** The short and the long name of a transaction type give the same number. -/
theorem C12_short_long (n : Nat) (short long : Bytes) (h : (n, short, long) ∈ txnTypes) :
    readConstInt short = some n ∧ readConstInt long = some n :=
  ⟨(readConstInt_iff short n).2 (Or.inl (Or.inl ⟨long, h⟩)),
   (readConstInt_iff long n).2 (Or.inl (Or.inr (Or.inl ⟨short, h⟩)))⟩

/-- **C12** Names are unambiguous. -/
theorem C12_unambiguous (s : Bytes) (n m : Nat) (h1 : NamedConst s n) (h2 : NamedConst s m) :
    n = m := by
  have a := (readConstInt_iff s n).2 (Or.inl h1)
  have b := (readConstInt_iff s m).2 (Or.inl h2)
  rw [a] at b
  exact Option.some.inj b

example : typeNameDescriptions.reverse.Perm typeNameDescriptions := List.reverse_perm _
example : readConstInt b!"axfer" = some 4 := by decide +kernel
example : NamedConst b!"UpdateApplication" 4 := Or.inr (Or.inr (by decide))
example : readConstInt b!"0x10" = some 16 := by decide +kernel
example : readConstInt b!"Noop" = none := by decide +kernel

/-! ## C13 -/

/-- **C13** Decoding a literal: between quotes, the accepted literals are exactly those whose
body denotes a byte string, and the result is that byte string. -/
theorem C13_decode (body bs : Bytes) :
    parseStringLiteral (34 :: (body ++ [34])) = .ok bs ↔ Denotes body bs :=
  parseStringLiteral_quoted body bs

/-- **C13** Nothing else is accepted (a lone quote counts as an empty literal). -/
theorem C13_only_quoted (s bs : Bytes) (h : parseStringLiteral s = .ok bs) :
    (s = [34] ∧ bs = []) ∨ ∃ body, s = 34 :: (body ++ [34]) ∧ Denotes body bs := by
  rcases parseStringLiteral_ok s bs h with h1 | ⟨body, rfl⟩
  · exact Or.inl h1
  · exact Or.inr ⟨body, rfl, (parseStringLiteral_quoted body bs).1 h⟩

/-- **C13** Decoding never runs off the end of the text; only the empty text, which is not a
literal, makes it panic. -/
theorem C13_no_crash (s : Bytes) (h : s ≠ []) : parseStringLiteral s ≠ .crash := by
  unfold parseStringLiteral
  cases s with
  | nil => exact absurd rfl h
  | cons c t =>
    rw [List.head?_cons, List.getLast?_cons]
    simp only
    split
    · simp
    · split <;> simp

/-- **C13** Every byte string has a spelling: escape it and decode, and it comes back. -/
theorem C13_roundtrip (bs : Bytes) :
    parseStringLiteral (34 :: (escapeAll bs ++ [34])) = .ok bs ∧
    parseStringLiteral (34 :: (escapeUsual bs ++ [34])) = .ok bs :=
  ⟨(parseStringLiteral_quoted _ _).2 (denotes_escapeAll bs),
   (parseStringLiteral_quoted _ _).2 (denotes_escapeUsual bs)⟩

example : Denotes b!"a\\n\\x41\\\"" b!"a\nA\"" :=
  .plain _ _ _ (by decide) (.escape 110 10 _ _ (by simp [escapeOf])
    (.hex 52 49 4 1 _ _ (by decide) (by decide)
      (.escape 34 34 _ _ (by simp [escapeOf]) .nil)))
example : parseStringLiteral b!"\"\\x4\"" = .err := by decide +kernel
example : parseStringLiteral b!"\"\\q\"" = .err := by decide +kernel
example : escapeUsual b!"a\tb\"" = b!"a\\tb\\\"" := by decide +kernel

/-! ## C14 -/

/-- **C14** Hex, base32 (padded or not) and base64 texts decode to the byte string they
encode. -/
theorem C14_decoders (bs : Bytes) (padded : Bool) :
    hexDecode (hexText bs) = some bs ∧
    base32DecodeAnyPadding (base32 padded bs) = some bs ∧
    b64Decode (base64 bs) = some bs :=
  ⟨hexDecode_hexText bs, base32_roundtrip padded bs, base64_roundtrip bs⟩

example : base64 b!"hello" = b!"aGVsbG8=" := by decide +kernel
example : base32 true b!"hi" = b!"NBUQ====" := by decide +kernel
example : base32 false b!"hi" = b!"NBUQ" := by decide +kernel
example : hexText b!"hi" = b!"6869" := by decide +kernel

/-! ## C15, C16 -/

/-- The documented fields of a group. -/
def documented : FieldGroup → List DocField
  | .txn => txnFields.map fun d => ⟨d.name, d.since⟩
  | .global => globalFields
  | .ecdsa => ecdsaFields
  | .ecGroup => ecGroupFields
  | .base64 => base64Fields
  | .jsonRef => jsonRefFields
  | .vrf => vrfFields
  | .block => blockFields
  | .assetHolding => assetHoldingFields
  | .assetParams => assetParamsFields
  | .appParams => appParamsFields
  | .acctParams => acctParamsFields

theorem documented_specs (g : FieldGroup) :
    (documented g).map (fun d => (d.name, d.since)) =
      g.specs.map (fun s => (g.str s.field, s.version)) := by
  cases g <;> decide +kernel

theorem documented_spec (g : FieldGroup) (i : Nat) (d : DocField) (h : (documented g)[i]? = some d) :
    ∃ s, g.specs[i]? = some s ∧ g.str i = d.name ∧ s.version = d.since := by
  have h1 := congrArg (fun l => l[i]?) (documented_specs g)
  simp only [List.getElem?_map, h, Option.map_some] at h1
  cases hs : g.specs[i]? with
  | none => rw [hs] at h1; cases h1
  | some s =>
    rw [hs] at h1
    simp only [Option.map_some, Option.some.injEq, Prod.mk.injEq] at h1
    refine ⟨s, rfl, ?_, h1.2.symm⟩
    rw [h1.1, (mem_specs_of_index g i s hs).2]

/-- **C15** For every group of fields other than transaction fields: the `i`-th documented name
is accepted exactly from the version that introduced it, as field `i`. -/
theorem C15_field_version (g : FieldGroup) (v i : Nat) (d : DocField)
    (h : (documented g)[i]? = some d) :
    readField g v d.name = if d.since ≤ v then some ⟨i, true⟩ else none := by
  obtain ⟨s, hs, h1, h2⟩ := documented_spec g i d h
  obtain ⟨h3, h4⟩ := mem_specs_of_index g i s hs
  unfold readField
  rw [← h1, ← h4, specByName_mem g s h3]
  simp only
  by_cases hv : d.since ≤ v
  · rw [if_pos hv, if_neg (by omega)]
  · rw [if_neg hv, if_pos (by omega)]

theorem txnFields_specs :
    txnFields.map (fun d => (d.name, d.since, d.array, d.inner)) =
      txnFieldSpecs.map (fun s => (FieldGroup.txn.str s.field, s.version, s.array,
        if s.itxVersion = 0 then none else some s.itxVersion)) := by
  decide +kernel

theorem txnFields_spec (i : Nat) (d : DocTxnField) (h : txnFields[i]? = some d) :
    ∃ s, txnFieldSpecs[i]? = some s ∧ FieldGroup.txn.str i = d.name ∧ s.version = d.since ∧
      s.array = d.array ∧ (if s.itxVersion = 0 then none else some s.itxVersion) = d.inner := by
  have h1 := congrArg (fun l => l[i]?) txnFields_specs
  simp only [List.getElem?_map, h, Option.map_some] at h1
  cases hs : txnFieldSpecs[i]? with
  | none => rw [hs] at h1; cases h1
  | some s =>
    rw [hs] at h1
    simp only [Option.map_some, Option.some.injEq, Prod.mk.injEq] at h1
    refine ⟨s, rfl, ?_, h1.2.1.symm, h1.2.2.1.symm, h1.2.2.2.symm⟩
    rw [h1.1, (mem_specs_of_index .txn i s hs).2]

/-- **C15** Transaction fields read by `txn`, `gtxn`, `gtxns`, `itxn`, `gitxn`. -/
theorem C15_txn_version (v i : Nat) (d : DocTxnField) (h : txnFields[i]? = some d) :
    readTxnField .txn v d.name = if d.since ≤ v then some ⟨i, true⟩ else none := by
  obtain ⟨s, hs, h1, h2, _⟩ := txnFields_spec i d h
  obtain ⟨h3, h4⟩ := mem_specs_of_index .txn i s hs
  unfold readTxnField
  rw [← h1, ← h4, specByName_mem .txn s h3]
  simp only [reduceCtorEq, false_and, if_false]
  by_cases hv : d.since ≤ v
  · rw [if_pos hv, if_neg (by omega)]
  · rw [if_neg hv, if_pos (by omega)]

/-- **C15** Transaction fields set by `itxn_field`. -/
theorem C15_itxn_version (v i : Nat) (d : DocTxnField) (h : txnFields[i]? = some d) :
    readTxnField .itxn v d.name =
      match d.inner with
      | none => none
      | some since => if since ≤ v then some ⟨i, true⟩ else none := by
  obtain ⟨s, hs, h1, _, _, h2⟩ := txnFields_spec i d h
  obtain ⟨h3, h4⟩ := mem_specs_of_index .txn i s hs
  unfold readTxnField
  rw [← h1, ← h4, specByName_mem .txn s h3, ← h2]
  simp only [reduceCtorEq, false_and, if_false, true_and]
  by_cases h0 : s.itxVersion = 0
  · rw [if_pos h0, if_pos h0]
  · rw [if_neg h0, if_neg h0]
    simp only
    by_cases hv : s.itxVersion ≤ v
    · rw [if_pos hv, if_neg (by omega)]
    · rw [if_neg hv, if_pos (by omega)]

/-- **C15** (part) The opcodes with an index immediate (`txna`, `gtxna`, `txnas`, …) accept
exactly the array fields.  Missing: they do not look at the version at all, so the property
is false of them (`C15_false`). -/
theorem C15_txna_partial (v i : Nat) (d : DocTxnField) (h : txnFields[i]? = some d) :
    readTxnField .txna v d.name = if d.array then some ⟨i, true⟩ else none := by
  obtain ⟨s, hs, h1, _, h2, _⟩ := txnFields_spec i d h
  obtain ⟨h3, h4⟩ := mem_specs_of_index .txn i s hs
  unfold readTxnField
  rw [← h1, ← h4, specByName_mem .txn s h3, ← h2]
  cases h5 : s.array <;> simp [h5]

/-- **C15** is false of the code for `txna` and its relatives: `ApprovalProgramPages`, a field
of version 7, is accepted in a version 2 program. -/
theorem C15_false : ∃ (i : Nat) (d : DocTxnField), txnFields[i]? = some d ∧ 2 < d.since ∧
    readTxnField .txna 2 d.name = some ⟨i, true⟩ :=
  ⟨64, ⟨b!"ApprovalProgramPages", 7, true, some 7⟩, by decide +kernel, by decide, by decide +kernel⟩

/-- **C16** The name printed for field number `i` is the `i`-th documented name. -/
theorem C16_print_name (g : FieldGroup) (i : Nat) (d : DocField) (h : (documented g)[i]? = some d) :
    g.str i = d.name := by
  obtain ⟨_, _, h1, _⟩ := documented_spec g i d h
  exact h1

/-- **C16** Names are unambiguous within a group. -/
theorem C16_unambiguous (g : FieldGroup) : ((documented g).map (·.name)).Nodup := by
  have h := congrArg (fun l => l.map Prod.fst) (documented_specs g)
  simp only [List.map_map] at h
  have h2 : (documented g).map (·.name) = g.specs.map fun s => g.str s.field := h
  rw [h2]
  exact specNames_nodup g

/-- **C16** Any other text is accepted exactly when it is the decimal spelling of a number that
fits a byte, and then it stands for that number. -/
theorem C16_by_number (g : FieldGroup) (v : Nat) (s : Bytes)
    (h : ∀ d ∈ documented g, d.name ≠ s) (r : FieldRead) :
    readField g v s = some r ↔
      r.isconst = false ∧ s ≠ [] ∧ ∃ ds, PlainDigits 10 s ds ∧ r.field = numeral 10 ds ∧
        r.field < 256 := by
  have hn : g.specByName.get s = none := by
    apply specByName_none
    intro sp hsp he
    have h2 : (documented g).map (·.name) = g.specs.map fun s => g.str s.field := by
      have h := congrArg (fun l => l.map Prod.fst) (documented_specs g)
      simp only [List.map_map] at h
      exact h
    have : s ∈ (documented g).map (·.name) := by
      rw [h2, ← he]
      exact List.mem_map_of_mem hsp
    obtain ⟨d, hd, hde⟩ := List.mem_map.1 this
    exact h d hd hde
  unfold readField
  rw [hn]
  simp only [Option.map_eq_some_iff]
  constructor
  · rintro ⟨n, hr, rfl⟩
    obtain ⟨a, b⟩ := (C11_uint8 s n).1 hr
    exact ⟨rfl, a, b⟩
  · rintro ⟨h1, h2, ds, h3, h4, h5⟩
    refine ⟨r.field, (C11_uint8 s r.field).2 ⟨h2, ds, h3, h4, h5⟩, ?_⟩
    cases r
    simp only at h1
    subst h1
    rfl

/-- **C16** The same for transaction fields, in every context. -/
theorem C16_txn_by_number (c : FieldContext) (v : Nat) (s : Bytes)
    (h : ∀ d ∈ txnFields, d.name ≠ s) : readTxnField c v s = readField .txn v s := by
  have hn : FieldGroup.txn.specByName.get s = none := by
    apply specByName_none
    intro sp hsp he
    have h2 : txnFields.map (·.name) = txnFieldSpecs.map fun s => FieldGroup.txn.str s.field := by
      have h := congrArg (fun l => l.map Prod.fst) txnFields_specs
      simp only [List.map_map] at h
      exact h
    have : s ∈ txnFields.map (·.name) := by
      rw [h2, ← he]
      exact List.mem_map_of_mem hsp
    obtain ⟨d, hd, hde⟩ := List.mem_map.1 this
    exact h d hd hde
  unfold readTxnField readField
  rw [hn]

example : readTxnField .txn 6 b!"FirstValidTime" = none := by decide +kernel
example : readTxnField .txn 7 b!"FirstValidTime" = some ⟨3, true⟩ := by decide +kernel
example : readField .global 1 b!"GroupSize" = some ⟨4, true⟩ := by decide +kernel
example : readField .global 1 b!"200" = some ⟨200, false⟩ := by decide +kernel
example : (documented .acctParams)[10]? = some ⟨b!"AcctTotalBoxes", 8⟩ := by decide +kernel

end Teal.Props
