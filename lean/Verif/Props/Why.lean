import Verif.Lemmas.Why
import Verif.Props.OperandTold

/-!
# Why a constant cannot be read (C122)
-/

namespace Teal.Props

open Teal Spec Teal.Lsp Teal.Lsp.Spec Teal.WireSpec Teal.JsonSpec

theorem stringText_quoted (q : Bytes → Bytes) (s : Bytes) : stringText q (34 :: (s ++ [34])) = (stringWhy q s false false).getD [] := by
  have h1 : (34 :: (s ++ [34])).getLast? = some (34 : UInt8) := by
    rw [← List.cons_append, List.getLast?_append]; simp
  unfold stringText
  rw [h1, quoted_slice, if_neg (by simp [chQuote])]

/-- **C122** The texts say why a constant cannot be read: a number is out of range if the word begins with one that is too
large, and has the wrong syntax otherwise; the first byte that is not a hex digit is named; and so is the first escape
of a literal that cannot be read. -/
theorem C122_texts (q base32 base64 addr : Bytes → Bytes) : Explains q (goTexts q base32 base64 addr) where
  byte x h := by
    refine numText_says ?_ (uintBaseWhy_range (by decide) (by decide) (by decide) x)
    intro hn
    obtain ⟨n, hn⟩ := Option.ne_none_iff_exists'.1 ((uintBaseWhy_none _ _ _).1 hn)
    exact h n ((C11_uint8 _ _).1 hn)
  uint x h := by
    refine numText_says (uint0Why_none x ?_) (uint0Why_range x)
    refine Option.eq_none_iff_forall_ne_some.2 fun n hn => h n ((parseUint0_iff 64 (by decide) x n).1 hn)
  small x h := by
    refine numText_says (intBaseWhy_none x ?_) (intBaseWhy_range x)
    refine Option.eq_none_iff_forall_ne_some.2 fun n hn => h n ((C11_int8 _ _).1 hn)
  hex x h := by
    have hd : hexDecode x = none := Option.eq_none_iff_forall_ne_some.2 fun v hv => h v ((hexDecode_iff _ _).1 hv)
    obtain ⟨m, hm⟩ := Option.ne_none_iff_exists'.1 (hexWhy_none x hd)
    show HexSays x ((hexWhy x).getD [])
    rw [hm]
    exact hexWhy_says _ x (Nat.le_refl _) m hm
  string s h := by
    have hd : stringLoop s false false = none := Option.eq_none_iff_forall_ne_some.2 fun v hv => h v ((stringLoop_iff _ _).1 hv)
    obtain ⟨m, hm⟩ := Option.ne_none_iff_exists'.1 (stringWhy_none (quote := q) hd)
    show LiteralSays q s (stringText q _)
    rw [stringText_quoted, hm]
    exact stringWhy_says _ s (Nat.le_refl _) m hm

theorem stringWhy_good {q : Bytes → Bytes} {good bs : Bytes} (h : Denotes good bs) (bad : Bytes) :
    stringWhy q (good ++ bad) false false = stringWhy q bad false false := by
  induction h with
  | nil => rfl
  | plain c s bs hc h ih =>
    rw [List.cons_append, stringWhy, if_neg (by simp [chBackslash, hc])]
    simpa using ih
  | escape c v s bs hc h ih =>
    rw [List.cons_append, List.cons_append, stringWhy, if_pos (by simp [chBackslash])]
    simp only [Bool.false_eq_true, if_false]
    have hx : c ≠ 120 := by
      rintro rfl
      unfold escapeOf at hc
      revert hc
      simp
    rw [stringWhy, if_neg (by simp)]
    simp only [if_true, if_neg hx, (simpleEscape_iff c v).2 hc, Option.map_some, Bool.false_eq_true, if_false]
    exact ih
  | hex x y a b s bs hp hq h ih =>
    have hx : x ≠ 92 := by rintro rfl; cases hp
    have hu := (parse_two_hex x y _).2 ⟨a, b, hp, hq, rfl⟩
    have hn := (uintBaseWhy_none 16 8 [x, y]).2 (by rw [hu]; simp)
    rw [List.cons_append, List.cons_append, List.cons_append, List.cons_append, stringWhy, if_pos (by simp [chBackslash])]
    simp only [Bool.false_eq_true, if_false]
    rw [stringWhy, if_neg (by simp)]
    simp only [if_true]
    rw [stringWhy, if_neg (by simp [chBackslash, hx])]
    simp only [Bool.false_eq_true, if_false, if_true, hn]
    exact ih

/-- **C122** There is one thing to be said about a literal of ASCII characters. -/
theorem C122_unique {q : Bytes → Bytes} {s m m' : Bytes} (ha : ∀ c ∈ s, c < 128) (h : LiteralSays q s m) (h' : LiteralSays q s m') : m = m' := by
  have key : ∀ {m}, LiteralSays q s m → stringWhy q s false false = some m := by
    rintro m ⟨good, bs, bad, rfl, h1, h2⟩
    rw [stringWhy_good h1]
    cases h2 with
    | backslash => simp [stringWhy, chBackslash]
    | letter c s hc hx hl =>
      have he : simpleEscape c = none := Option.eq_none_iff_forall_ne_some.2 fun v hv => hc v ((simpleEscape_iff c v).1 hv)
      rw [stringWhy, if_pos (by simp [chBackslash])]
      simp only [Bool.false_eq_true, if_false]
      rw [stringWhy, if_neg (by simp)]
      simp only [if_true, if_neg hx, he, Option.map_none]
      unfold byteRune
      rw [if_pos hl]
    | other c s d hl =>
      have := ha c (List.mem_append_right _ (.tail _ (.head _)))
      exact absurd this (by simpa using hl)
    | x => simp [stringWhy, chBackslash]
    | escape s =>
      rw [stringWhy, if_pos (by simp [chBackslash])]
      simp only [Bool.false_eq_true, if_false]
      rw [stringWhy, if_neg (by simp)]
      simp only [if_true]
      rw [stringWhy, if_pos (by simp [chBackslash])]
      rfl
    | one c hc =>
      rw [stringWhy, if_pos (by simp [chBackslash])]
      simp only [Bool.false_eq_true, if_false]
      rw [stringWhy, if_neg (by simp)]
      simp only [if_true]
      rw [stringWhy, if_neg (by simp [chBackslash, hc])]
      rfl
    | digits c d s hc hd =>
      have hnone : parseUintBase 16 8 [c, d] = none := by
        refine Option.eq_none_iff_forall_ne_some.2 fun n hn => ?_
        obtain ⟨a, b, h1, h2, -⟩ := (parse_two_hex c d n).1 hn
        rcases hd with h | h
        · rw [h1] at h; cases h
        · rw [h2] at h; cases h
      have hw : stringWhy q (92 :: 120 :: c :: d :: s) false false = match uintBaseWhy 16 8 [c, d] with
            | some w => some (numText b!"ParseUint" q [c, d] (some w))
            | none => stringWhy q s false false := by
        rw [stringWhy, if_pos (by simp [chBackslash])]
        simp only [Bool.false_eq_true, if_false]
        rw [stringWhy, if_neg (by simp)]
        simp only [if_true]
        rw [stringWhy, if_neg (by simp [chBackslash, hc])]
        rfl
      have hd' : stringLoop (92 :: 120 :: c :: d :: s) false false = none := by
        rw [stringLoop, if_pos (by simp [chBackslash])]
        simp only [Bool.false_eq_true, if_false]
        rw [stringLoop, if_neg (by simp)]
        simp only [if_true]
        rw [stringLoop, if_neg (by simp [chBackslash, hc])]
        simp only [Bool.false_eq_true, if_false, if_true, hnone]
      cases hu : uintBaseWhy 16 8 [c, d] with
      | none => exact absurd hnone ((uintBaseWhy_none _ _ _).1 hu)
      | some w =>
        have hsyn : w = .syntax := by
          cases w with
          | «syntax» => rfl
          | range =>
            exfalso
            rcases hd with h | h
            · have hc' : digitOf c = none ∨ ∃ n, digitOf c = some n ∧ 16 ≤ n := by
                cases ho : digitOf c with
                | none => exact .inl rfl
                | some n =>
                  refine .inr ⟨n, rfl, Nat.le_of_not_lt fun hlt => ?_⟩
                  rw [(digitOf_small c n hlt).1 ho] at h
                  cases h
              rw [uintBaseWhy, if_neg (by simp), digitsWhy, if_neg (by simp)] at hu
              rcases hc' with h | ⟨n, h, hge⟩
              · rw [h] at hu; cases hu
              · rw [h] at hu; simp only [ge_iff_le, hge, if_true] at hu; cases hu
            · obtain ⟨p, r, ds, h1, h2, h3⟩ := (uintBaseWhy_range (by decide) (by decide) (by decide) _).1 hu
              match p, ds with
              | [], [] => exact absurd h3 (by decide)
              | [], d :: ds => simp [PlainDigits] at h2
              | [y], [] => simp [PlainDigits] at h2
              | [y], [d] =>
                have := h2.2 d (.head _)
                simp [numeral] at h3
                omega
              | [y], d :: e :: ds => simp [PlainDigits] at h2
              | y :: z :: x, ds =>
                simp only [List.cons_append, List.cons.injEq] at h1
                obtain ⟨rfl, rfl, h1⟩ := h1
                have h4 := h2.1
                match ds with
                | [] => simp at h4
                | [d] => simp at h4
                | d :: e :: ds => simp [h] at h4
        rw [hw, hu, hsyn]
        simp [numText]
  exact Option.some.inj ((key h).symm.trans (key h'))

/-- None of these texts begins like a message of the tool. -/
theorem C122_foreign {q base32 base64 addr : Bytes → Bytes} (h1 : ∀ s, Foreign (base32 s)) (h2 : ∀ s, Foreign (base64 s)) (h3 : ∀ s, Foreign (addr s)) :
    ForeignTexts (goTexts q base32 base64 addr) where
  base32 := h1
  base64 := h2
  addr := h3
  hex s := by
    show Foreign ((hexWhy s).getD [])
    cases h : hexWhy s with
    | none => unfold Foreign; decide
    | some m =>
      have := hexWhy_says _ s (Nat.le_refl _) m h
      cases this with
      | byte => exact foreign_lit _ _ (by decide)
      | odd => unfold Foreign; decide
  string s := by
    show Foreign (stringText q s)
    unfold stringText
    split
    · unfold Foreign; decide
    · generalize (s.take (s.length - 1)).drop 1 = body
      cases h : stringWhy q body false false with
      | none => unfold Foreign; decide
      | some m =>
        obtain ⟨good, bs, bad, -, -, hm⟩ := stringWhy_says _ body (Nat.le_refl _) m h
        show Foreign m
        cases hm with
        | letter => exact foreign_lit _ _ (by decide)
        | other => exact foreign_lit _ _ (by decide)
        | digits => rw [List.append_assoc]; exact foreign_lit _ _ (by decide)
        | _ => unfold Foreign; decide

/-- **C122** (partial: with the exceptions of C120.)  The editor is told why the operand of an instruction cannot be read. -/
theorem C122_partial {q base32 base64 addr : Bytes → Bytes} {h : Host} {ms : List (Choice × Msg)} {u src : Bytes} {items : List LspDiag}
    (ha : Diagnosed h ms u src items) {t : Wire.Texts}
    (ht : ∀ it, t.operand it = operandText (goTexts q base32 base64 addr) h.addrOk src it.range.start.line.toNat)
    (k : Nat) (x : Token) (rest : List Token) (ver : Nat) (hw : words (tokens src) k = x :: rest)
    (hv : VersionAt (tokens src) k ver) (hd : ∃ d ∈ docOps, d.name = x.v)
    (harr : x.v ∈ arrayOps → ∀ y ∈ rest.map Token.v, ∀ d ∈ txnFields, d.name = y → d.array = true → d.since ≤ ver)
    (hclosed : x.v ∈ byteConstOps → ∀ y ∈ rest.map Token.v, Closed y) :
    ∃ e, Explains q e ∧ ∃ os : List Operand, (x.v ≠ b!"gitxna" → Describes x.v os) ∧
      (x.v ∉ [b!"replace", b!"extract", b!"txn", b!"gtxns", b!"gtxn"] → ∀ active, ShowsSignature x.v os (Wire.signatureOut t x.v active)) ∧
      EditorSays t items k (x :: rest) (Blames e h.addrOk ver x.v false 1 os (rest.map Token.v)) :=
  ⟨_, C122_texts q base32 base64 addr, C121_partial ha ht k x rest ver hw hv hd harr hclosed⟩

/-- **C122**, of the version of a `#pragma`. -/
theorem C122_pragma {q base32 base64 addr : Bytes → Bytes} {h : Host} {ms : List (Choice × Msg)} {u src : Bytes} {items : List LspDiag}
    (ha : Diagnosed h ms u src items) {t : Wire.Texts}
    (ht : ∀ it, t.operand it = operandText (goTexts q base32 base64 addr) h.addrOk src it.range.start.line.toNat)
    (k : Nat) (x : Token) (rest : List Token) (hw : words (tokens src) k = x :: rest) (hp : x.v = b!"#pragma") :
    ∃ e, Explains q e ∧ EditorSays t items k (x :: rest) (PragmaBlames e (rest.map Token.v)) :=
  ⟨_, C122_texts q base32 base64 addr, C121_pragma ha ht k x rest hw hp⟩

/-- **C122** is false of a character that is not ASCII behind a backslash: of `\é` it is said that `\Ã` is not an escape. -/
theorem C122_false (q base32 base64 addr : Bytes → Bytes) :
    (goTexts q base32 base64 addr).string (34 :: ([92, 195, 169] ++ [34])) = b!"invalid escape seq \\" ++ [195, 131] := by
  show stringText q (34 :: ([92, 195, 169] ++ [34])) = b!"invalid escape seq \\" ++ [195, 131]
  rw [stringText_quoted, stringWhy, if_pos (by simp [chBackslash])]
  simp only [Bool.false_eq_true, if_false]
  rw [stringWhy, if_neg (by simp)]
  rfl

/-- Texts with words in quotation marks. -/
def sampleGo : ErrorTexts := goTexts (fun s => b!"\"" ++ s ++ b!"\"") (fun s => b!"base32? " ++ s) (fun s => b!"base64? " ++ s) (fun s => b!"addr? " ++ s)

/-- What is said of some words. -/
example : sampleGo.uint8 b!"256" = b!"strconv.ParseUint: parsing \"256\": value out of range" ∧
    sampleGo.uint8 b!"-1" = b!"strconv.ParseUint: parsing \"-1\": invalid syntax" ∧
    sampleGo.uint8 b!"300x" = b!"strconv.ParseUint: parsing \"300x\": value out of range" ∧
    sampleGo.uint64 b!"0x1_0000_0000_0000_0000" = b!"strconv.ParseUint: parsing \"0x1_0000_0000_0000_0000\": value out of range" ∧
    sampleGo.uint64 b!"1__0" = b!"strconv.ParseUint: parsing \"1__0\": invalid syntax" ∧
    sampleGo.int8 b!"-129" = b!"strconv.ParseInt: parsing \"-129\": value out of range" ∧
    sampleGo.int8 b!"200x" = b!"strconv.ParseInt: parsing \"200x\": invalid syntax" ∧
    sampleGo.hex b!"12x4" = b!"encoding/hex: invalid byte: U+0078 'x'" ∧
    sampleGo.hex b!"123" = b!"encoding/hex: odd length hex string" ∧
    sampleGo.string b!"\"a\\qb\"" = b!"invalid escape seq \\q" ∧
    sampleGo.string b!"\"\\xz1\"" = b!"strconv.ParseUint: parsing \"z1\": invalid syntax" := by
  refine ⟨?_, ?_, ?_, ?_, ?_, ?_, ?_, ?_, ?_, ?_, ?_⟩ <;> decide +kernel

/-- What an editor is told about a text. -/
example : Diagnosed sampleHost (openSession b!"int 0x\nbyte 0x0\nbyte \"\\xg0\"") b!"u" b!"int 0x\nbyte 0x0\nbyte \"\\xg0\""
      [⟨Lsp.onLine 0 4 6, 1, .parse .badUint64⟩, ⟨Lsp.onLine 1 5 8, 1, .parse .badBytes⟩, ⟨Lsp.onLine 2 5 11, 1, .parse .badBytes⟩] ∧
    [0, 1, 2].map (operandText sampleGo sampleHost.addrOk b!"int 0x\nbyte 0x0\nbyte \"\\xg0\"") =
      [b!"failed to parse uint64: value: strconv.ParseUint: parsing \"0x\": invalid syntax",
       b!"encoding/hex: odd length hex string", b!"strconv.ParseUint: parsing \"g0\": invalid syntax"] := by
  refine ⟨open_diagnosed _ _ (by decide +kernel), by decide +kernel⟩

end Teal.Props
