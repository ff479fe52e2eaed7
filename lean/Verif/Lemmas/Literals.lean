import Verif.Model.Literals
import Verif.Spec.Literals
import Verif.Lemmas.Strconv

namespace Teal

open Spec

/-! ## String literals -/

theorem simpleEscape_iff (c v : UInt8) : simpleEscape c = some v ↔ escapeOf c v := by
  unfold simpleEscape escapeOf
  by_cases h1 : c = 110
  · subst h1; simp [eq_comm]
  by_cases h2 : c = 114
  · subst h2; simp [eq_comm]
  by_cases h3 : c = 116
  · subst h3; simp [eq_comm]
  by_cases h4 : c = 92
  · subst h4; simp [eq_comm]
  by_cases h5 : c = 34
  · subst h5; simp [eq_comm]
  simp [h1, h2, h3, h4, h5]

theorem simpleEscape_x : simpleEscape 120 = none := by decide

theorem parse_two_hex (p q : UInt8) (n : Nat) :
    parseUintBase 16 8 [p, q] = some n ↔
      ∃ a b, digitValue p = some a ∧ digitValue q = some b ∧ n = a * 16 + b := by
  rw [parseUintBase_iff 16 8 (by decide) (by decide) (by decide)]
  constructor
  · rintro ⟨_, ds, ⟨h1, h2⟩, h3, h4⟩
    match ds, h1 with
    | [], h1 => simp at h1
    | [_], h1 => simp at h1
    | _ :: _ :: _ :: _, h1 => simp at h1
    | [a, b], h1 =>
      simp only [List.map_cons, List.map_nil, List.cons.injEq, and_true] at h1
      exact ⟨a, b, h1.1, h1.2, by rw [h3]; simp [numeral]⟩
  · rintro ⟨a, b, ha, hb, hn⟩
    have h1 := digitValue_lt p a ha
    have h2 := digitValue_lt q b hb
    refine ⟨by simp, [a, b], ⟨by simp [ha, hb], ?_⟩, by simp [numeral, hn], by omega⟩
    intro d hd
    simp only [List.mem_cons, List.not_mem_nil, or_false] at hd
    rcases hd with rfl | rfl <;> assumption

theorem digitValue_ne_backslash {c : UInt8} {d : Nat} (h : digitValue c = some d) : c ≠ 92 := by
  rintro rfl
  have : digitValue 92 = none := by decide
  rw [this] at h
  cases h

theorem stringLoop_of_denotes {s bs : Bytes} (h : Denotes s bs) :
    stringLoop s false false = some bs := by
  induction h with
  | nil => rfl
  | plain c s bs hc h ih =>
    rw [stringLoop, if_neg (by simp [chBackslash, hc])]
    simp [ih]
  | escape c v s bs hc h ih =>
    rw [stringLoop, if_pos (by simp [chBackslash])]
    simp only [Bool.false_eq_true, if_false]
    rw [stringLoop, if_neg (by simp)]
    have h1 := (simpleEscape_iff c v).2 hc
    have h2 : c ≠ 120 := by
      rintro rfl
      rw [simpleEscape_x] at h1
      cases h1
    simp [h2, h1, ih]
  | hex p q a b s bs hp hq h ih =>
    rw [stringLoop, if_pos (by simp [chBackslash])]
    simp only [Bool.false_eq_true, if_false]
    rw [stringLoop, if_neg (by simp)]
    simp only [if_true]
    rw [stringLoop, if_neg (by simp [chBackslash, digitValue_ne_backslash hp])]
    have h1 : parseUintBase 16 8 [p, q] = some (a * 16 + b) :=
      (parse_two_hex p q _).2 ⟨a, b, hp, hq, rfl⟩
    simp [h1, ih]

theorem denotes_of_stringLoop (n : Nat) : ∀ (s bs : Bytes), s.length ≤ n →
    stringLoop s false false = some bs → Denotes s bs := by
  induction n with
  | zero =>
    intro s bs hn h
    have : s = [] := by
      cases s with
      | nil => rfl
      | cons => simp at hn
    subst this
    rw [stringLoop] at h
    simp at h
    subst h
    exact .nil
  | succ n ih =>
    intro s bs hn h
    match s with
    | [] =>
      rw [stringLoop] at h
      simp at h
      subst h
      exact .nil
    | c :: s =>
      simp only [List.length_cons] at hn
      rw [stringLoop] at h
      by_cases hc : c = 92
      · subst hc
        rw [if_pos (by simp [chBackslash])] at h
        simp only [Bool.false_eq_true, if_false] at h
        match s with
        | [] => rw [stringLoop] at h; simp at h
        | d :: s =>
          simp only [List.length_cons] at hn
          rw [stringLoop, if_neg (by simp)] at h
          by_cases hd : d = 120
          · subst hd
            simp only [if_true] at h
            match s with
            | [] => rw [stringLoop] at h; simp at h
            | p :: s =>
              simp only [List.length_cons] at hn
              rw [stringLoop] at h
              by_cases hp : p = 92
              · rw [if_pos (by simp [chBackslash, hp])] at h
                simp at h
              · rw [if_neg (by simp [chBackslash, hp])] at h
                match s with
                | [] => simp at h
                | q :: s =>
                  simp only [List.length_cons] at hn
                  simp only [Bool.false_eq_true, if_false, if_true] at h
                  cases hnum : parseUintBase 16 8 [p, q] with
                  | none => rw [hnum] at h; simp at h
                  | some num =>
                    rw [hnum] at h
                    simp only [Option.map_eq_some_iff] at h
                    obtain ⟨r, hr, rfl⟩ := h
                    obtain ⟨a, b, ha, hb, rfl⟩ := (parse_two_hex p q num).1 hnum
                    exact .hex p q a b s r ha hb (ih s r (by omega) hr)
          · simp only [if_true, if_neg hd] at h
            cases he : simpleEscape d with
            | none => rw [he] at h; simp at h
            | some v =>
              rw [he] at h
              simp only [Option.map_some, Bool.false_eq_true, if_false, Option.map_eq_some_iff] at h
              obtain ⟨r, hr, rfl⟩ := h
              exact .escape d v s r ((simpleEscape_iff d v).1 he) (ih s r (by omega) hr)
      · rw [if_neg (by simp [chBackslash, hc])] at h
        simp only [Bool.false_eq_true, if_false, Option.map_eq_some_iff] at h
        obtain ⟨r, hr, rfl⟩ := h
        exact .plain c s r hc (ih s r (by omega) hr)

theorem stringLoop_iff (s bs : Bytes) : stringLoop s false false = some bs ↔ Denotes s bs :=
  ⟨denotes_of_stringLoop s.length s bs (Nat.le_refl _), stringLoop_of_denotes⟩

theorem quoted_slice (body : Bytes) :
    ((34 :: (body ++ [34])).take ((34 :: (body ++ [34])).length - 1)).drop 1 = body := by
  simp

theorem parseStringLiteral_quoted (body bs : Bytes) :
    parseStringLiteral (34 :: (body ++ [34])) = .ok bs ↔ Denotes body bs := by
  unfold parseStringLiteral
  have h1 : (34 :: (body ++ [34])).getLast? = some (34 : UInt8) := by
    rw [← List.cons_append, List.getLast?_append]; simp
  rw [h1]
  simp only [List.head?_cons, ne_eq, chQuote, not_true_eq_false, or_self, if_false]
  rw [quoted_slice, ← stringLoop_iff]
  cases stringLoop body false false <;> simp

theorem parseStringLiteral_ok (s bs : Bytes) (h : parseStringLiteral s = .ok bs) :
    s = [34] ∧ bs = [] ∨ ∃ body, s = 34 :: (body ++ [34]) := by
  unfold parseStringLiteral at h
  cases s with
  | nil => simp at h
  | cons c s =>
    cases hl : (c :: s).getLast? with
    | none => rw [hl] at h; simp at h
    | some l =>
      rw [hl] at h
      simp only [List.head?_cons] at h
      by_cases hq : c ≠ chQuote ∨ l ≠ chQuote
      · rw [if_pos hq] at h; cases h
      · rw [if_neg hq] at h
        have hc : c = 34 := Classical.byContradiction fun hn => hq (Or.inl hn)
        have hl' : l = 34 := Classical.byContradiction fun hn => hq (Or.inr hn)
        subst hc hl'
        rcases List.eq_nil_or_concat s with rfl | ⟨body, x, rfl⟩
        · left
          simp [stringLoop] at h
          exact ⟨rfl, h⟩
        · right
          rw [List.concat_eq_append, ← List.cons_append, List.getLast?_append] at hl
          simp at hl
          subst hl
          exact ⟨body, by rw [List.concat_eq_append]⟩

theorem digitValue_hexDigit (n : Nat) (h : n < 16) : digitValue (hexDigit n) = some n := by
  have : ∀ n : Fin 16, digitValue (hexDigit n.val) = some n.val := by decide
  exact this ⟨n, h⟩

theorem ofNat_div_mod (b : UInt8) : UInt8.ofNat (b.toNat / 16 * 16 + b.toNat % 16) = b := by
  rw [Nat.div_add_mod']
  exact UInt8.ofNat_toNat

theorem denotes_hexByte (b : UInt8) {s bs : Bytes} (h : Denotes s bs) :
    Denotes (92 :: 120 :: (hexByte b ++ s)) (b :: bs) := by
  have hb := b.toNat_lt
  have := Denotes.hex (hexDigit (b.toNat / 16)) (hexDigit (b.toNat % 16)) (b.toNat / 16)
    (b.toNat % 16) s bs (digitValue_hexDigit _ (by omega)) (digitValue_hexDigit _ (by omega)) h
  rw [ofNat_div_mod] at this
  exact this

theorem denotes_escapeAll (bs : Bytes) : Denotes (escapeAll bs) bs := by
  induction bs with
  | nil => exact .nil
  | cons b bs ih =>
    have := denotes_hexByte b ih
    simpa [escapeAll] using this

theorem denotes_escapeUsual (bs : Bytes) : Denotes (escapeUsual bs) bs := by
  induction bs with
  | nil => exact .nil
  | cons b bs ih =>
    have e : escapeUsual (b :: bs) = (if b = 10 then [92, 110]
      else if b = 13 then [92, 114]
      else if b = 9 then [92, 116]
      else if b = 92 then [92, 92]
      else if b = 34 then [92, 34]
      else if 32 ≤ b ∧ b ≤ 126 then [b]
      else 92 :: 120 :: hexByte b) ++ escapeUsual bs := by
      simp [escapeUsual]
    rw [e]
    by_cases h1 : b = 10
    · subst h1; exact .escape 110 10 _ _ (by simp [escapeOf]) ih
    rw [if_neg h1]
    by_cases h2 : b = 13
    · subst h2; exact .escape 114 13 _ _ (by simp [escapeOf]) ih
    rw [if_neg h2]
    by_cases h3 : b = 9
    · subst h3; exact .escape 116 9 _ _ (by simp [escapeOf]) ih
    rw [if_neg h3]
    by_cases h4 : b = 92
    · subst h4; exact .escape 92 92 _ _ (by simp [escapeOf]) ih
    rw [if_neg h4]
    by_cases h5 : b = 34
    · subst h5; exact .escape 34 34 _ _ (by simp [escapeOf]) ih
    rw [if_neg h5]
    by_cases h6 : 32 ≤ b ∧ b ≤ 126
    · rw [if_pos h6]; exact .plain b _ _ h4 ih
    rw [if_neg h6]
    exact denotes_hexByte b ih

/-! ## Hex -/

theorem hexVal_eq (c : UInt8) : hexVal c = digitValue c := by
  revert c
  apply forall_byte
  decide +kernel

theorem hexDecode_hexText (bs : Bytes) : hexDecode (hexText bs) = some bs := by
  induction bs with
  | nil => rfl
  | cons b bs ih =>
    have hb := b.toNat_lt
    have e : hexText (b :: bs) =
        hexDigit (b.toNat / 16) :: hexDigit (b.toNat % 16) :: hexText bs := by
      simp [hexText, hexByte]
    rw [e, hexDecode, hexVal_eq, hexVal_eq, digitValue_hexDigit _ (by omega),
      digitValue_hexDigit _ (by omega)]
    simp only [ih, Option.map_some, ofNat_div_mod]

/-! ## Base 32 -/

theorem b32Val_alphabet (n : Nat) (h : n < 32) : b32Val (alphabet32 n) = some n := by
  have : ∀ n : Fin 32, b32Val (alphabet32 n.val) = some n.val := by decide
  exact this ⟨n, h⟩

theorem alphabet32_facts (n : Nat) (h : n < 32) :
    alphabet32 n ≠ 61 ∧ alphabet32 n ≠ 255 ∧ alphabet32 n ≠ 13 ∧ alphabet32 n ≠ 10 ∧
    alphabet32 n ≠ 40 ∧ alphabet32 n ≠ 41 := by
  have : ∀ n : Fin 32, alphabet32 n.val ≠ 61 ∧ alphabet32 n.val ≠ 255 ∧ alphabet32 n.val ≠ 13 ∧
    alphabet32 n.val ≠ 10 ∧ alphabet32 n.val ≠ 40 ∧ alphabet32 n.val ≠ 41 := by decide
  exact this ⟨n, h⟩

theorem b32Quantum_symbol (noPad : Bool) (n : Nat) (hn : n < 32) (src : Bytes) (dbuf : List Nat)
    (h : dbuf.length < 8) :
    b32Quantum noPad (if noPad then 255 else 61) (alphabet32 n :: src) dbuf =
      b32Quantum noPad (if noPad then 255 else 61) src (dbuf ++ [n]) := by
  obtain ⟨h1, h2, _⟩ := alphabet32_facts n hn
  rw [b32Quantum, if_neg (by omega), if_neg, b32Val_alphabet n hn]
  cases noPad <;> simp [h1, h2]

theorem b32Quantum_full (noPad : Bool) (p : UInt8) (src : Bytes) (dbuf : List Nat)
    (h : dbuf.length = 8) : b32Quantum noPad p src dbuf = some ⟨dbuf, src, false⟩ := by
  cases src <;> rw [b32Quantum, if_pos h]

theorem b32Quantum_end (dbuf : List Nat) (h : dbuf.length < 8) :
    b32Quantum true 255 [] dbuf = some ⟨dbuf, [], true⟩ := by
  rw [b32Quantum, if_neg (by omega)]
  rfl

theorem b32Quantum_pad (dbuf : List Nat) (k : Nat)
    (hd : dbuf.length = 2 ∨ dbuf.length = 4 ∨ dbuf.length = 5 ∨ dbuf.length = 7)
    (hk : dbuf.length + k = 8) :
    b32Quantum false 61 (List.replicate k 61) dbuf = some ⟨dbuf, List.replicate (k - 1) 61, true⟩ := by
  obtain ⟨j, rfl⟩ : ∃ j, k = j + 1 := ⟨k - 1, by omega⟩
  rw [List.replicate_succ, b32Quantum, if_neg (by omega)]
  simp only [List.length_replicate]
  rw [if_pos ⟨trivial, by omega, by omega⟩, if_neg (by omega), if_neg (by simp [List.take_replicate]),
    if_neg (by omega)]
  simp

theorem b32Quantum_pad_noPad (dbuf : List Nat) (s : Bytes) (hd : dbuf.length < 8) :
    b32Quantum true 255 (61 :: s) dbuf = none := by
  rw [b32Quantum, if_neg (by omega), if_neg (by simp)]
  have : b32Val 61 = none := by decide
  rw [this]

/-- Symbols spelled out as a list of numbers. -/
def digitsBE (base : Nat) : Nat → Nat → List Nat
  | 0, _ => []
  | k + 1, n => digitsBE base k (n / base) ++ [n % base]

theorem symbols_eq (base : Nat) (al : Nat → UInt8) (k n : Nat) :
    symbols base al k n = (digitsBE base k n).map al := by
  induction k generalizing n with
  | zero => rfl
  | succ k ih => simp [symbols, digitsBE, ih]

theorem digitsBE_length (base k n : Nat) : (digitsBE base k n).length = k := by
  induction k generalizing n with
  | zero => rfl
  | succ k ih => simp [digitsBE, ih]

theorem digitsBE_lt (base k n : Nat) (hb : 0 < base) : ∀ d ∈ digitsBE base k n, d < base := by
  induction k generalizing n with
  | zero => simp [digitsBE]
  | succ k ih =>
    intro d hd
    simp only [digitsBE, List.mem_append, List.mem_singleton] at hd
    rcases hd with hd | rfl
    · exact ih _ d hd
    · exact Nat.mod_lt _ hb

theorem b32Quantum_symbols (noPad : Bool) (ds : List Nat) (hds : ∀ d ∈ ds, d < 32) :
    ∀ (dbuf : List Nat) (src : Bytes), dbuf.length + ds.length ≤ 8 →
    b32Quantum noPad (if noPad then 255 else 61) (ds.map alphabet32 ++ src) dbuf =
      b32Quantum noPad (if noPad then 255 else 61) src (dbuf ++ ds) := by
  induction ds with
  | nil => intro dbuf src _; simp
  | cons d ds ih =>
    intro dbuf src h
    simp only [List.length_cons] at h
    rw [List.map_cons, List.cons_append, b32Quantum_symbol _ _ (hds d List.mem_cons_self) _ _ (by omega),
      ih (fun x hx => hds x (List.mem_cons_of_mem _ hx)) _ _ (by simp; omega)]
    simp

theorem byte_eq_ofNat (a : UInt8) (n : Nat) (h : n = a.toNat) : UInt8.ofNat n = a := by
  subst h; exact UInt8.ofNat_toNat

theorem b32Pack1 (a : UInt8) : b32Pack (digitsBE 32 2 (bigEndian [a] * 2 ^ 2)) = [a] := by
  have ha := a.toNat_lt
  simp only [digitsBE, bigEndian, List.foldl_cons, List.foldl_nil, List.nil_append, List.cons_append]
  simp only [b32Pack, List.cons.injEq, and_true]
  apply byte_eq_ofNat
  omega

theorem b32Pack2 (a b : UInt8) : b32Pack (digitsBE 32 4 (bigEndian [a, b] * 2 ^ 4)) = [a, b] := by
  have ha := a.toNat_lt
  have hb := b.toNat_lt
  simp only [digitsBE, bigEndian, List.foldl_cons, List.foldl_nil, List.nil_append, List.cons_append]
  simp only [b32Pack, List.cons.injEq, and_true]
  refine ⟨?_, ?_⟩ <;> apply byte_eq_ofNat <;> omega

theorem b32Pack3 (a b c : UInt8) :
    b32Pack (digitsBE 32 5 (bigEndian [a, b, c] * 2)) = [a, b, c] := by
  have ha := a.toNat_lt
  have hb := b.toNat_lt
  have hc := c.toNat_lt
  simp only [digitsBE, bigEndian, List.foldl_cons, List.foldl_nil, List.nil_append, List.cons_append]
  simp only [b32Pack, List.cons.injEq, and_true]
  refine ⟨?_, ?_, ?_⟩ <;> apply byte_eq_ofNat <;> omega

theorem b32Pack4 (a b c d : UInt8) :
    b32Pack (digitsBE 32 7 (bigEndian [a, b, c, d] * 2 ^ 3)) = [a, b, c, d] := by
  have ha := a.toNat_lt
  have hb := b.toNat_lt
  have hc := c.toNat_lt
  have hd := d.toNat_lt
  simp only [digitsBE, bigEndian, List.foldl_cons, List.foldl_nil, List.nil_append, List.cons_append]
  simp only [b32Pack, List.cons.injEq, and_true]
  refine ⟨?_, ?_, ?_, ?_⟩ <;> apply byte_eq_ofNat <;> omega

theorem b32Pack5 (a b c d e : UInt8) :
    b32Pack (digitsBE 32 8 (bigEndian [a, b, c, d, e])) = [a, b, c, d, e] := by
  have ha := a.toNat_lt
  have hb := b.toNat_lt
  have hc := c.toNat_lt
  have hd := d.toNat_lt
  have he := e.toNat_lt
  simp only [digitsBE, bigEndian, List.foldl_cons, List.foldl_nil, List.nil_append, List.cons_append]
  simp only [b32Pack, List.cons.injEq, and_true]
  refine ⟨?_, ?_, ?_, ?_, ?_⟩ <;> apply byte_eq_ofNat <;> omega

theorem stripNewlines_eq (s : Bytes) (h : ∀ c ∈ s, c ≠ 13 ∧ c ≠ 10) : stripNewlines s = s := by
  unfold stripNewlines
  rw [List.filter_eq_self]
  intro c hc
  simpa using h c hc

/-- The base32 characters: symbols and padding. -/
theorem base32_chars (padded : Bool) (bs : Bytes) :
    ∀ c ∈ base32 padded bs, c = 61 ∨ ∃ n, n < 32 ∧ c = alphabet32 n := by
  have key : ∀ k n, ∀ c ∈ symbols 32 alphabet32 k n, c = 61 ∨ ∃ n, n < 32 ∧ c = alphabet32 n := by
    intro k n c hc
    rw [symbols_eq] at hc
    obtain ⟨d, hd, rfl⟩ := List.mem_map.1 hc
    exact Or.inr ⟨d, digitsBE_lt 32 k n (by decide) d hd, rfl⟩
  have kpad : ∀ k, ∀ c ∈ pads padded k, c = 61 ∨ ∃ n, n < 32 ∧ c = alphabet32 n := by
    intro k c hc
    unfold pads at hc
    split at hc
    · exact Or.inl (List.eq_of_mem_replicate hc)
    · simp at hc
  fun_induction base32 padded bs with
  | case1 => simp
  | case2 | case3 | case4 | case5 =>
    intro x hx
    rcases List.mem_append.1 hx with hx | hx
    · exact key _ _ x hx
    · exact kpad _ x hx
  | case6 a b c d e s ih =>
    intro x hx
    rcases List.mem_append.1 hx with hx | hx
    · exact key _ _ x hx
    · exact ih x hx

theorem base32_no_newline (padded : Bool) (bs : Bytes) :
    ∀ c ∈ base32 padded bs, c ≠ 13 ∧ c ≠ 10 := by
  intro c hc
  rcases base32_chars padded bs c hc with rfl | ⟨n, hn, rfl⟩
  · decide
  · exact ⟨(alphabet32_facts n hn).2.2.1, (alphabet32_facts n hn).2.2.2.1⟩

theorem b32Quantum_all (noPad : Bool) (k n : Nat) (hk : k ≤ 8) (src : Bytes) :
    b32Quantum noPad (if noPad then 255 else 61) (symbols 32 alphabet32 k n ++ src) [] =
      b32Quantum noPad (if noPad then 255 else 61) src (digitsBE 32 k n) := by
  rw [symbols_eq, b32Quantum_symbols noPad _ (digitsBE_lt 32 k n (by decide)) [] src
    (by simp [digitsBE_length, hk])]
  simp

theorem symbols_length (base : Nat) (al : Nat → UInt8) (k n : Nat) :
    (symbols base al k n).length = k := by
  rw [symbols_eq, List.length_map, digitsBE_length]

theorem symbols_ne_nil (base : Nat) (al : Nat → UInt8) (k n : Nat) (s : Bytes) :
    symbols base al (k + 1) n ++ s ≠ [] := by
  intro h
  have := congrArg List.length h
  simp [symbols_length] at this

/-- One short last group, without padding. -/
theorem b32Loop_last_noPad (fuel k n : Nat) (hk : k + 1 < 8) :
    b32Loop true 255 (fuel + 1) (symbols 32 alphabet32 (k + 1) n) =
      some (b32Pack (digitsBE 32 (k + 1) n)) := by
  have h := b32Quantum_all true (k + 1) n (by omega) []
  simp only [List.append_nil, if_true] at h
  have hne := symbols_ne_nil 32 alphabet32 k n []
  rw [List.append_nil] at hne
  rw [b32Loop, if_neg hne, h, b32Quantum_end _ (by rw [digitsBE_length]; omega)]
  simp

/-- One short last group, with padding. -/
theorem b32Loop_last_pad (fuel k n p : Nat) (hk : k + 1 = 2 ∨ k + 1 = 4 ∨ k + 1 = 5 ∨ k + 1 = 7)
    (hp : k + 1 + p = 8) :
    b32Loop false 61 (fuel + 1) (symbols 32 alphabet32 (k + 1) n ++ List.replicate p 61) =
      some (b32Pack (digitsBE 32 (k + 1) n)) := by
  have h := b32Quantum_all false (k + 1) n (by omega) (List.replicate p 61)
  simp only [Bool.false_eq_true, if_false] at h
  rw [b32Loop, if_neg (symbols_ne_nil _ _ _ _ _), h,
    b32Quantum_pad _ p (by rw [digitsBE_length]; exact hk) (by rw [digitsBE_length]; exact hp)]
  simp

/-- A padded group is an error to the decoder without padding. -/
theorem b32Loop_pad_noPad (fuel k n p : Nat) (hk : k + 1 < 8) :
    b32Loop true 255 (fuel + 1) (symbols 32 alphabet32 (k + 1) n ++ List.replicate (p + 1) 61) =
      none := by
  have h := b32Quantum_all true (k + 1) n (by omega) (List.replicate (p + 1) 61)
  simp only [if_true] at h
  rw [b32Loop, if_neg (symbols_ne_nil _ _ _ _ _), h, List.replicate_succ,
    b32Quantum_pad_noPad _ _ (by rw [digitsBE_length]; omega)]

/-- A full group. -/
theorem b32Loop_full (noPad : Bool) (fuel n : Nat) (s : Bytes) :
    b32Loop noPad (if noPad then 255 else 61) (fuel + 1) (symbols 32 alphabet32 8 n ++ s) =
      (b32Loop noPad (if noPad then 255 else 61) fuel s).map (b32Pack (digitsBE 32 8 n) ++ ·) := by
  rw [b32Loop, if_neg (symbols_ne_nil _ _ _ _ _), b32Quantum_all noPad 8 n (by omega),
    b32Quantum_full _ _ _ _ (digitsBE_length 32 8 n)]
  simp

theorem b32Loop_unpadded (bs : Bytes) : ∀ fuel, (base32 false bs).length ≤ fuel →
    b32Loop true 255 fuel (base32 false bs) = some bs := by
  fun_induction base32 false bs with
  | case1 =>
    intro fuel _
    cases fuel <;> simp [b32Loop]
  | case2 a =>
    intro fuel h
    obtain ⟨f, rfl⟩ : ∃ f, fuel = f + 1 := ⟨fuel - 1, by simp [symbols_length] at h; omega⟩
    simp only [pads, Bool.false_eq_true, if_false, List.append_nil]
    rw [b32Loop_last_noPad f 1 _ (by omega), b32Pack1]
  | case3 a b =>
    intro fuel h
    obtain ⟨f, rfl⟩ : ∃ f, fuel = f + 1 := ⟨fuel - 1, by simp [symbols_length] at h; omega⟩
    simp only [pads, Bool.false_eq_true, if_false, List.append_nil]
    rw [b32Loop_last_noPad f 3 _ (by omega), b32Pack2]
  | case4 a b c =>
    intro fuel h
    obtain ⟨f, rfl⟩ : ∃ f, fuel = f + 1 := ⟨fuel - 1, by simp [symbols_length] at h; omega⟩
    simp only [pads, Bool.false_eq_true, if_false, List.append_nil]
    rw [b32Loop_last_noPad f 4 _ (by omega), b32Pack3]
  | case5 a b c d =>
    intro fuel h
    obtain ⟨f, rfl⟩ : ∃ f, fuel = f + 1 := ⟨fuel - 1, by simp [symbols_length] at h; omega⟩
    simp only [pads, Bool.false_eq_true, if_false, List.append_nil]
    rw [b32Loop_last_noPad f 6 _ (by omega), b32Pack4]
  | case6 a b c d e s ih =>
    intro fuel h
    simp only [List.length_append, symbols_length] at h
    obtain ⟨f, rfl⟩ : ∃ f, fuel = f + 1 := ⟨fuel - 1, by omega⟩
    have := b32Loop_full true f (bigEndian [a, b, c, d, e]) (base32 false s)
    simp only [if_true] at this
    rw [this, ih f (by omega), b32Pack5]
    simp

theorem b32Loop_padded (bs : Bytes) : ∀ fuel, (base32 true bs).length ≤ fuel →
    b32Loop false 61 fuel (base32 true bs) = some bs ∧
    (b32Loop true 255 fuel (base32 true bs) = some bs ∨
      b32Loop true 255 fuel (base32 true bs) = none) := by
  fun_induction base32 true bs with
  | case1 =>
    intro fuel _
    cases fuel <;> simp [b32Loop]
  | case2 a =>
    intro fuel h
    obtain ⟨f, rfl⟩ : ∃ f, fuel = f + 1 := ⟨fuel - 1, by simp [symbols_length] at h; omega⟩
    simp only [pads, if_true]
    rw [b32Loop_last_pad f 1 _ 6 (by omega) (by omega), b32Pack1,
      b32Loop_pad_noPad f 1 _ 5 (by omega)]
    simp
  | case3 a b =>
    intro fuel h
    obtain ⟨f, rfl⟩ : ∃ f, fuel = f + 1 := ⟨fuel - 1, by simp [symbols_length] at h; omega⟩
    simp only [pads, if_true]
    rw [b32Loop_last_pad f 3 _ 4 (by omega) (by omega), b32Pack2,
      b32Loop_pad_noPad f 3 _ 3 (by omega)]
    simp
  | case4 a b c =>
    intro fuel h
    obtain ⟨f, rfl⟩ : ∃ f, fuel = f + 1 := ⟨fuel - 1, by simp [symbols_length] at h; omega⟩
    simp only [pads, if_true]
    rw [b32Loop_last_pad f 4 _ 3 (by omega) (by omega), b32Pack3,
      b32Loop_pad_noPad f 4 _ 2 (by omega)]
    simp
  | case5 a b c d =>
    intro fuel h
    obtain ⟨f, rfl⟩ : ∃ f, fuel = f + 1 := ⟨fuel - 1, by simp [symbols_length] at h; omega⟩
    simp only [pads, if_true]
    rw [b32Loop_last_pad f 6 _ 1 (by omega) (by omega), b32Pack4,
      b32Loop_pad_noPad f 6 _ 0 (by omega)]
    simp
  | case6 a b c d e s ih =>
    intro fuel h
    simp only [List.length_append, symbols_length] at h
    obtain ⟨f, rfl⟩ : ∃ f, fuel = f + 1 := ⟨fuel - 1, by omega⟩
    have h1 := b32Loop_full true f (bigEndian [a, b, c, d, e]) (base32 true s)
    have h2 := b32Loop_full false f (bigEndian [a, b, c, d, e]) (base32 true s)
    simp only [if_true, Bool.false_eq_true, if_false] at h1 h2
    obtain ⟨i1, i2⟩ := ih f (by omega)
    rw [h1, h2, i1, b32Pack5]
    refine ⟨by simp, ?_⟩
    rcases i2 with i2 | i2 <;> rw [i2] <;> simp

theorem base32_roundtrip (padded : Bool) (bs : Bytes) :
    base32DecodeAnyPadding (base32 padded bs) = some bs := by
  unfold base32DecodeAnyPadding b32Decode
  simp only [stripNewlines_eq _ (base32_no_newline padded bs), if_true, Bool.false_eq_true, if_false]
  cases padded with
  | false => rw [b32Loop_unpadded bs _ (Nat.le_refl _)]
  | true =>
    obtain ⟨h1, h2⟩ := b32Loop_padded bs _ (Nat.le_refl _)
    rcases h2 with h2 | h2 <;> rw [h2]
    exact h1

/-! ## Base 64 -/

theorem b64Val_alphabet (n : Nat) (h : n < 64) : b64Val (alphabet64 n) = some n := by
  have : ∀ n : Fin 64, b64Val (alphabet64 n.val) = some n.val := by decide
  exact this ⟨n, h⟩

theorem alphabet64_facts (n : Nat) (h : n < 64) :
    alphabet64 n ≠ 61 ∧ alphabet64 n ≠ 13 ∧ alphabet64 n ≠ 10 ∧
    alphabet64 n ≠ 40 ∧ alphabet64 n ≠ 41 := by
  have : ∀ n : Fin 64, alphabet64 n.val ≠ 61 ∧ alphabet64 n.val ≠ 13 ∧
    alphabet64 n.val ≠ 10 ∧ alphabet64 n.val ≠ 40 ∧ alphabet64 n.val ≠ 41 := by decide
  exact this ⟨n, h⟩

theorem alphabet64_eq (n : Nat) (h : n < 64) : alphabet64 n = b64Char n := by
  have : ∀ n : Fin 64, alphabet64 n.val = b64Char n.val := by decide
  exact this ⟨n, h⟩

/-- The encoder of the model is the encoding of the specification. -/
theorem b64Encode_eq (bs : Bytes) : b64Encode bs = base64 bs := by
  fun_induction b64Encode bs with
  | case1 => rfl
  | case2 a =>
    have ha := a.toNat_lt
    simp only [base64, symbols, bigEndian, List.foldl_cons, List.foldl_nil, List.nil_append,
      List.cons_append]
    rw [alphabet64_eq _ (by omega), alphabet64_eq _ (by omega)]
    simp only [List.cons.injEq, and_true]
    refine ⟨congrArg b64Char ?_, congrArg b64Char ?_⟩ <;> omega
  | case3 a b =>
    have ha := a.toNat_lt
    have hb := b.toNat_lt
    simp only [base64, symbols, bigEndian, List.foldl_cons, List.foldl_nil, List.nil_append,
      List.cons_append]
    rw [alphabet64_eq _ (by omega), alphabet64_eq _ (by omega), alphabet64_eq _ (by omega)]
    simp only [List.cons.injEq, and_true]
    refine ⟨congrArg b64Char ?_, congrArg b64Char ?_, congrArg b64Char ?_⟩ <;> omega
  | case4 a b c s ih =>
    have ha := a.toNat_lt
    have hb := b.toNat_lt
    have hc := c.toNat_lt
    simp only [base64, symbols, bigEndian, List.foldl_cons, List.foldl_nil, List.nil_append,
      List.cons_append]
    rw [alphabet64_eq _ (by omega), alphabet64_eq _ (by omega), alphabet64_eq _ (by omega),
      alphabet64_eq _ (by omega), ih]
    simp only [List.cons.injEq, and_true]
    refine ⟨congrArg b64Char ?_, congrArg b64Char ?_, congrArg b64Char ?_, congrArg b64Char ?_⟩ <;>
      omega

theorem b64Val_char (n : Nat) (h : n < 64) : b64Val (b64Char n) = some n := by
  rw [← alphabet64_eq n h, b64Val_alphabet n h]

theorem b64Char_ne (n : Nat) (h : n < 64) : b64Char n ≠ 61 := by
  rw [← alphabet64_eq n h]
  exact (alphabet64_facts n h).1

theorem b64Loop_encode (bs : Bytes) : b64Loop (b64Encode bs) = some bs := by
  fun_induction b64Encode bs with
  | case1 => rfl
  | case2 a =>
    have ha := a.toNat_lt
    rw [b64Loop, b64Val_char _ (by omega), b64Val_char _ (by omega)]
    simp only [Option.some.injEq, List.cons.injEq, and_true]
    apply byte_eq_ofNat
    omega
  | case3 a b =>
    have ha := a.toNat_lt
    have hb := b.toNat_lt
    rw [b64Loop, b64Val_char _ (by omega), b64Val_char _ (by omega), b64Val_char _ (by omega)]
    · simp only [Option.some.injEq, List.cons.injEq, and_true]
      refine ⟨?_, ?_⟩ <;> apply byte_eq_ofNat <;> omega
    · intro h
      exact absurd h (b64Char_ne _ (by omega))
  | case4 a b c s ih =>
    have ha := a.toNat_lt
    have hb := b.toNat_lt
    have hc := c.toNat_lt
    rw [b64Loop, b64Val_char _ (by omega), b64Val_char _ (by omega), b64Val_char _ (by omega),
      b64Val_char _ (by omega)]
    · simp only [ih, Option.map_some, Option.some.injEq, List.cons.injEq, and_true]
      refine ⟨?_, ?_, ?_⟩ <;> apply byte_eq_ofNat <;> omega
    · intro _ h
      exact absurd h (b64Char_ne _ (by omega))
    · intro h
      exact absurd h (b64Char_ne _ (by omega))

theorem base64_chars (bs : Bytes) :
    ∀ c ∈ base64 bs, c = 61 ∨ ∃ n, n < 64 ∧ c = alphabet64 n := by
  have key : ∀ k n, ∀ c ∈ symbols 64 alphabet64 k n, c = 61 ∨ ∃ n, n < 64 ∧ c = alphabet64 n := by
    intro k n c hc
    rw [symbols_eq] at hc
    obtain ⟨d, hd, rfl⟩ := List.mem_map.1 hc
    exact Or.inr ⟨d, digitsBE_lt 64 k n (by decide) d hd, rfl⟩
  fun_induction base64 bs with
  | case1 => simp
  | case2 | case3 =>
    intro x hx
    rcases List.mem_append.1 hx with hx | hx
    · exact key _ _ x hx
    · simp at hx; exact Or.inl hx
  | case4 a b c s ih =>
    intro x hx
    rcases List.mem_append.1 hx with hx | hx
    · exact key _ _ x hx
    · exact ih x hx

theorem base64_roundtrip (bs : Bytes) : b64Decode (base64 bs) = some bs := by
  unfold b64Decode
  rw [stripNewlines_eq, ← b64Encode_eq, b64Loop_encode]
  intro c hc
  rcases base64_chars bs c hc with rfl | ⟨n, hn, rfl⟩
  · decide
  · exact ⟨(alphabet64_facts n hn).2.1, (alphabet64_facts n hn).2.2.1⟩

end Teal
