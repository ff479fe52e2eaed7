import Verif.Lemmas.Corrupt
import Verif.Props.Why

/-!
# Base32 constants, and where base32 and base64 constants go wrong (C130)
-/

namespace Teal.Props

open Teal Spec Teal.Lsp Teal.Lsp.Spec Teal.WireSpec Teal.JsonSpec

/-- **C130** Exactly the base32 texts can be read, and they are read as the bytes they stand for. -/
theorem C130_base32 {s : Bytes} (hs : Unbroken s) (v : Bytes) : base32DecodeAnyPadding s = some v ↔ Base32Of s v := base32_iff hs v

/-- **C130**, of the words of an instruction. -/
theorem C130_words {s : Bytes} (hs : Unbroken s) (v : Bytes) :
    (∀ p ∈ [b!"base32", b!"b32"], IsBytes [p, s] v ↔ Base32Of s v) ∧
    (41 ∉ s → ∀ p ∈ [b!"base32(", b!"b32("], IsBytes [p ++ s ++ [41]] v ↔ Base32Of s v) := by
  constructor
  · intro p hp
    constructor
    · generalize hw : [p, s] = ws
      intro h
      cases h with
      | base32' p' s' v hp' h => cases hw; exact (base32_iff hs v).1 h
      | base64' p' s' v hp' h => cases hw; simp only [List.mem_cons, List.not_mem_nil, or_false] at hp hp'; rcases hp with rfl | rfl <;> simp at hp'
      | _ => cases hw
    · exact fun h => .base32' p s v hp ((base32_iff hs v).2 h)
  · intro h41 p hp
    constructor
    · generalize hw : [p ++ s ++ [41]] = ws
      intro h
      have hhead : ∀ {p p' : Bytes} {s t : Bytes}, p ++ s ++ [41] = p' ++ t → p.take p'.length = p'.take p.length := by
        intro p p' s t h
        have h1 := congrArg (List.take (min p.length p'.length)) h
        rw [List.append_assoc, List.take_append_of_le_length (by omega), List.take_append_of_le_length (by omega)] at h1
        rw [List.take_eq_take_min, List.take_eq_take_min (l := p'), Nat.min_comm, h1, Nat.min_comm]
      cases h with
      | hex s' v h =>
        injection hw with hw _
        have := hhead hw
        simp only [List.mem_cons, List.not_mem_nil, or_false] at hp
        rcases hp with rfl | rfl <;> exact absurd this (by decide)
      | base32 p' s' v hp' hs' h =>
        injection hw with hw _
        have h0 := List.append_cancel_right hw
        have h1 := hhead (s := s) (t := s' ++ [41]) (by rw [← List.append_assoc]; exact hw)
        have hpp : p = p' := by
          simp only [List.mem_cons, List.not_mem_nil, or_false] at hp hp'
          rcases hp with rfl | rfl <;> rcases hp' with rfl | rfl <;> first | rfl | exact absurd h1 (by decide)
        subst hpp
        rw [← List.append_cancel_left h0] at h
        exact (base32_iff hs v).1 h
      | base64 p' s' v hp' h =>
        injection hw with hw _
        have h1 := hhead (s := s) (t := s' ++ [41]) (by rw [← List.append_assoc]; exact hw)
        simp only [List.mem_cons, List.not_mem_nil, or_false] at hp hp'
        rcases hp with rfl | rfl <;> rcases hp' with rfl | rfl <;> exact absurd h1 (by decide)
      | string s' v h =>
        injection hw with hw _
        have h1 := hhead (p' := [34]) (t := s' ++ [34]) (s := s) (by simpa using hw)
        simp only [List.mem_cons, List.not_mem_nil, or_false] at hp
        rcases hp with rfl | rfl <;> exact absurd h1 (by decide)
      | _ => cases hw
    · exact fun h => .base32 p s v hp h41 ((base32_iff hs v).2 h)

/-- **C130** The messages say where a base32 or base64 text goes wrong. -/
theorem C130_texts (q addr : Bytes → Bytes) : Locates (goErrors q addr) where
  base32 x hx h := by
    obtain ⟨n, h1, h2⟩ := b32Offset_of hx h
    refine ⟨n, _, h1, formatUint_decimal n, ?_⟩
    show b32Text x = _
    unfold b32Text
    rw [h2]
  base64 x hx h := by
    rcases b64Offset_of (fun c hc => ⟨(hx c hc).1, (hx c hc).2.1⟩) with ⟨-, v, hv⟩ | ⟨n, h1, h2⟩
    · exact absurd hv (h v)
    · refine ⟨n, _, h1, formatUint_decimal n, ?_⟩
      show b64Text x = _
      unfold b64Text
      rw [h2]

theorem base64Fails_offset {x : Bytes} {n : Nat} (hx : ∀ c ∈ x, c ≠ 13 ∧ c ≠ 10) (h : Base64Fails x n) : b64Offset x = some n := by
  unfold b64Offset
  have pad : ∀ {good rest : Bytes}, (∀ c ∈ good, Symbol64 c) → b64Corrupt (good ++ rest).length (good ++ rest) 0 = b64Corrupt (good ++ rest).length rest (good.length % 4) := by
    intro good rest hg
    rw [b64Corrupt_good hg (by decide), Nat.zero_add]
  have brk : ¬ ((61 : UInt8) = chLF ∨ (61 : UInt8) = chCR) := by decide
  have hskip : ∀ {s : Bytes}, (∀ c ∈ s, c ∈ x) → skipBreaks s = s := fun h => skipBreaks_eq fun c hc => hx c (h c hc)
  cases h with
  | short good last hg h4 hl =>
    rw [pad (fun c hc => hg c (List.mem_append_left _ hc)), h4]
    have := b64Corrupt_good (olen := (good ++ last).length) (rest := []) (good := last) (j := 0) (fun c hc => hg c (List.mem_append_right _ hc)) (by decide)
    rw [List.append_nil] at this
    rw [this]
    simp only [List.mem_cons, List.not_mem_nil, or_false] at hl
    rw [b64Corrupt, if_neg (by omega), List.length_append]
    congr 1
    omega
  | other good c s hg hc he =>
    have hcx := hx c (by simp)
    have hv : b64Val c = none := Classical.not_not.1 fun h => hc ((symbol64_iff c).2 h)
    rw [pad hg, b64Corrupt, if_neg (by simp [hv]), if_neg (by simp [chLF, chCR, hcx.1, hcx.2]), if_pos he]
    simp
    omega
  | early good s hg h4 =>
    rw [pad hg, b64Corrupt, if_neg (by simp [b64Val_pad]), if_neg brk, if_neg (by simp), if_pos h4]
    simp
    omega
  | lone good hg h4 =>
    rw [pad hg, b64Corrupt, if_neg (by simp [b64Val_pad]), if_neg brk, if_neg (by simp), if_neg (by omega), if_pos h4]
    simp [skipBreaks]
  | single good c s hg h4 hc =>
    rw [pad hg, b64Corrupt, if_neg (by simp [b64Val_pad]), if_neg brk, if_neg (by simp), if_neg (by omega), if_pos h4, hskip (by intro d hd; simp [hd])]
    dsimp only
    rw [if_pos hc]
    simp
    omega
  | behind good c s n hg hn h4 =>
    rcases hn with rfl | rfl
    · show b64Corrupt (good ++ 61 :: c :: s).length (good ++ 61 :: c :: s) 0 = _
      rw [pad hg, b64Corrupt, if_neg (by simp [b64Val_pad]), if_neg brk, if_neg (by simp), if_neg (by omega), if_neg (by omega), b64Trailing,
        hskip (by intro d hd; simp [hd])]
      simp
      omega
    · show b64Corrupt (good ++ 61 :: 61 :: c :: s).length (good ++ 61 :: 61 :: c :: s) 0 = _
      rw [pad hg, b64Corrupt, if_neg (by simp [b64Val_pad]), if_neg brk, if_neg (by simp), if_neg (by omega), if_pos (by omega),
        hskip (by intro d hd; simp [hd])]
      dsimp only
      rw [if_neg (by simp), b64Trailing, hskip (by intro d hd; simp [hd])]
      simp
      omega

/-- **C130** There is one byte to be named. -/
theorem C130_unique {x : Bytes} (hx : Unbroken x) {n m : Nat} : (Base32Fails x n → Base32Fails x m → n = m) ∧ (Base64Fails x n → Base64Fails x m → n = m) := by
  constructor
  · rintro h h'
    generalize hy : x = y at h'
    cases h with
    | other good c s hg hc =>
      cases h' with
      | other good' c' s' hg' hc' =>
        rcases List.append_eq_append_iff.1 hy with ⟨t, h1, h2⟩ | ⟨t, h1, h2⟩
        · cases t with
          | nil => rw [h1, List.append_nil]
          | cons d t =>
            injection h2 with h2 _
            exact absurd (hg' c (by rw [h1, h2]; simp)) hc
        · cases t with
          | nil => rw [h1, List.append_nil]
          | cons d t =>
            injection h2 with h2 _
            exact absurd (hg c' (by rw [h1, h2]; simp)) hc'
  · intro h h'
    have hx' : ∀ c ∈ x, c ≠ 13 ∧ c ≠ 10 := fun c hc => ⟨(hx c hc).1, (hx c hc).2.1⟩
    have h1 := base64Fails_offset hx' h
    rw [base64Fails_offset hx' h'] at h1
    exact (Option.some.inj h1).symm

/-- **C130** A byte is named whenever the text cannot be read, line breaks or not. -/
theorem C130_named (x : Bytes) : (b64Text x = [] ↔ b64Decode x ≠ none) ∧ (base32DecodeAnyPadding x = none → b32Text x ≠ []) := by
  constructor
  · rw [← b64Offset_none]
    unfold b64Text
    cases b64Offset x <;> simp
  · intro h
    have h1 : b32Decode true x = none := by
      unfold base32DecodeAnyPadding at h
      split at h
      · cases h
      · assumption
    have h2 : b32Offset x ≠ none := fun h => (b32Offset_none x).1 h h1
    unfold b32Text
    cases hb : b32Offset x with
    | none => exact absurd hb h2
    | some n => simp

/-- **C130** (partial: with the exceptions of C120.)  The editor is told where a base32 or base64 constant goes wrong. -/
theorem C130_partial {q addr : Bytes → Bytes} {h : Host} {ms : List (Choice × Msg)} {u src : Bytes} {items : List LspDiag}
    (ha : Diagnosed h ms u src items) {t : Wire.Texts}
    (ht : ∀ it, t.operand it = operandText (goErrors q addr) h.addrOk src it.range.start.line.toNat)
    (k : Nat) (x : Token) (rest : List Token) (ver : Nat) (hw : words (tokens src) k = x :: rest)
    (hv : VersionAt (tokens src) k ver) (hd : ∃ d ∈ docOps, d.name = x.v)
    (harr : x.v ∈ arrayOps → ∀ y ∈ rest.map Token.v, ∀ d ∈ txnFields, d.name = y → d.array = true → d.since ≤ ver)
    (hclosed : x.v ∈ byteConstOps → ∀ y ∈ rest.map Token.v, Closed y) :
    ∃ e, Explains q e ∧ Locates e ∧ ∃ os : List Operand, (x.v ≠ b!"gitxna" → Describes x.v os) ∧
      (x.v ∉ [b!"replace", b!"extract", b!"txn", b!"gtxns", b!"gtxn"] → ∀ active, ShowsSignature x.v os (Wire.signatureOut t x.v active)) ∧
      EditorSays t items k (x :: rest) (Blames e h.addrOk ver x.v false 1 os (rest.map Token.v)) :=
  ⟨_, C122_texts q b32Text b64Text addr, C130_texts q addr, C121_partial ha ht k x rest ver hw hv hd harr hclosed⟩

/-- **C130** These messages begin differently from those that are not about operands, if that of an address does. -/
theorem C130_foreign {q addr : Bytes → Bytes} (h : ∀ s, Foreign (addr s)) : ForeignTexts (goErrors q addr) := by
  refine C122_foreign (fun s => ?_) (fun s => ?_) h
  · unfold b32Text
    cases b32Offset s with
    | none => unfold Foreign; decide
    | some n => exact foreign_lit _ _ (by decide)
  · unfold b64Text
    cases b64Offset s with
    | none => unfold Foreign; decide
    | some n => exact foreign_lit _ _ (by decide)

/-- What is behind the padding is ignored, and three symbols stand for nothing: such constants are accepted, although no bytes are
encoded like this. -/
theorem C130_false :
    (∃ r, process sampleEnv b!"byte b32 ME======!)\nbyte b32 MFR" = some r ∧ r.diagnostics = [] ∧ r.listing = [.byte b!"a", .byte []]) ∧
    (∀ padded bs, base32 padded bs ≠ b!"ME======!)") ∧ ∀ padded bs, base32 padded bs ≠ b!"MFR" := by
  refine ⟨⟨_, rfl, by decide +kernel, by decide +kernel⟩, ?_, ?_⟩
  · intro padded bs h
    rcases Teal.base32_chars padded bs 33 (by rw [h]; decide) with h | ⟨n, hn, h⟩
    · cases h
    · have : ∀ n : Fin 32, (33 : UInt8) ≠ alphabet32 n.val := by decide
      exact this ⟨n, hn⟩ h
  · intro padded bs h
    have h1 := base32_roundtrip padded bs
    rw [h] at h1
    have h2 : base32DecodeAnyPadding b!"MFR" = some [] := by decide +kernel
    rw [h2] at h1
    cases h1
    cases padded <;> cases h

/-- The byte that is named need not be the one that is wrong: of `MFRGG==x` it is the first `=`, although `MFRGG==` goes on as the text
of three bytes. -/
theorem C130_padding_false : base32DecodeAnyPadding b!"MFRGG==x" = none ∧ b32Text b!"MFRGG==x" = b!"illegal base32 data at input byte 5" ∧
    base32 true b!"abc" = b!"MFRGG==" ++ b!"=" := by
  refine ⟨?_, ?_, ?_⟩ <;> decide +kernel

/-- Some texts and the bytes named. -/
example : [b!"YWJ", b!"YW!j", b!"Y=", b!"YW=", b!"YW=x", b!"YWI=x", b!"YQ==x", b!"YWJjZ"].map b64Offset =
      [some 0, some 2, some 1, some 3, some 2, some 4, some 4, some 4] ∧
    [b!"YWJj", b!"YWI=", b!"YQ==", b!""].map b64Offset = [none, none, none, none] ∧
    [b!"MFRG1", b!"mfrgg", b!"MFRGG===", b!"MFRGG"].map b32Offset = [some 4, some 0, some 5, none] := by decide +kernel

example : Unbroken b!"MFRGG===" ∧ Base32Of b!"MFRGG===" b!"abc" := by
  have h : Unbroken b!"MFRGG===" := by unfold Unbroken; decide
  exact ⟨h, (C130_base32 h _).1 (by decide +kernel)⟩

/-- What an editor is told about a text. -/
example : Diagnosed sampleHost (openSession b!"byte b64 YW!j\nbyte b32(MFRG1)") b!"u" b!"byte b64 YW!j\nbyte b32(MFRG1)"
      [⟨Lsp.onLine 0 9 13, 1, .parse .badBytes⟩, ⟨Lsp.onLine 1 5 15, 1, .parse .badBytes⟩] ∧
    [0, 1].map (operandText (goErrors id id) sampleHost.addrOk b!"byte b64 YW!j\nbyte b32(MFRG1)") =
      [b!"illegal base64 data at input byte 2", b!"illegal base32 data at input byte 4"] := by
  refine ⟨open_diagnosed _ _ (by decide +kernel), by decide +kernel⟩

end Teal.Props
