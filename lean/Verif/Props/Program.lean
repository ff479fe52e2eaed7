import Verif.Props.Print

/-!
# C72: programs of the reference are read as what they are; C13, C14 for programs
-/

namespace Teal.Props
open Teal Spec P

/-- **C72** A text whose lines make a program is read to that program: a result is returned, with
the instruction of each line in the listing, and no complaint about any operand. -/
theorem C72_program (env : Env) (src : Bytes) (os : List Op) (h : Program env.addrOk 1 (wordLines (tokens src)) os) :
    ∃ r, process env src = some r ∧ r.listing = os ∧ ∀ d ∈ r.diagnostics, ∀ why, d.kind ≠ .parse why := by
  have hget : ∀ (j : Nat) (ws : List Bytes), (wordLines (tokens src))[j]? = some ws → (words (tokens src) (0 + j)).map Token.v = ws := by
    intro j ws hj
    unfold wordLines at hj
    rw [List.getElem?_map] at hj
    obtain ⟨k, h1, h2⟩ := Option.map_eq_some_iff.1 hj
    rw [List.getElem?_range (by
      have := (List.getElem?_eq_some_iff.1 h1).1
      simpa using this)] at h1
    injection h1 with h1
    rw [Nat.zero_add, h1]
    exact h2
  obtain ⟨hl, hops⟩ := program_lines h (tokens src) 0 .first hget
  have hl' : lineCount (tokens src) = os.length := by
    rw [← hl]; simp [wordLines]
  obtain ⟨qs, hr, -⟩ := process_eq env src
  obtain ⟨r, h1, h2, -, -, h3⟩ := program_of_lines env src os hl' (by
    intro k ver o hk hv
    obtain ⟨v, hv', ho, -⟩ := hops k o hk
    rw [Nat.zero_add] at hv' ho
    have hlt : k ≤ lineCount (readTokens src).1 := by
      rw [show lineCount (readTokens src).1 = os.length from hl']
      exact Nat.le_of_lt (List.getElem?_eq_some_iff.1 hk).1
    rw [(carry_version env.addrOk src qs hr k hlt ver).1 hv, ← (carry_version env.addrOk src qs hr k hlt v).1 hv']
    exact ho)
  refine ⟨r, h1, h2, h3 ?_⟩
  intro k o hk
  obtain ⟨v, -, -, ho⟩ := hops k o hk
  rw [Nat.zero_add] at ho
  exact ho

/-- A program of several lines with comments and blanks. -/
example : Program (fun _ => true) 1 (wordLines (tokens b!"#pragma version 0x6\n\nmain: // entry\n\tint 1 // one\n  gitxna 0x1 Logs 2\nb main"))
    [.pragma 6, .empty, .label b!"main", .int 1, .groupFieldIdx .gitxna 1 58 2, .branch .b b!"main"] := by
  have h : wordLines (tokens b!"#pragma version 0x6\n\nmain: // entry\n\tint 1 // one\n  gitxna 0x1 Logs 2\nb main") =
    [[b!"#pragma", b!"version", b!"0x6"], [], [b!"main" ++ [58]], [b!"int", b!"1"], [b!"gitxna", b!"0x1", b!"Logs", b!"2"], [b!"b", b!"main"]] := by
    decide +kernel
  rw [h]
  refine .version 1 _ 6 ((C11_int_literal _ _).1 (by decide)).1 (by decide) (by decide) _ _ ?_
  refine .blank 6 _ _ ?_
  refine .label 6 _ (by decide) _ _ ?_
  refine .instr 6 _ _ _ (by decide) (.int _ 1 (.inr ((C11_int_literal _ _).1 (by decide)))) _ _ ?_
  refine .gitxna 6 _ _ _ 1 58 2 ((C11_int_literal _ _).1 (by decide)) (by decide) (.inl ⟨_, rfl, rfl, rfl, by decide⟩)
    ((C11_uint8 _ _).1 (by decide)) _ _ ?_
  exact .instr 6 _ _ _ (by decide) (.branch _ _ .b (by decide)) _ _ (.nil 6)

/-! ## Constants in programs -/

/-- One line of text that is an instruction is read to it. -/
theorem one_line (env : Env) {raws : List Bytes} {w : Bytes} {ws : List Bytes} {o : Op} (h : WritesAll raws (w :: ws))
    (hw : w ≠ b!"gitxna") (ho : Instr env.addrOk 1 w ws o) :
    ∃ r, process env (lineText raws ++ [10]) = some r ∧ r.listing = [o] ∧ ∀ d ∈ r.diagnostics, ∀ why, d.kind ≠ .parse why := by
  have hl : linesText [raws] = lineText raws ++ [10] := by simp [linesText, chLF]
  obtain ⟨-, hc, hword⟩ := written (.cons _ _ [] [] h .nil)
  rw [hl] at hc hword
  refine C72_program env _ [o] ?_
  have : wordLines (tokens (lineText raws ++ [10])) = [w :: ws] := by
    unfold wordLines
    rw [show lineCount (tokens (lineText raws ++ [10])) = 1 from hc]
    have h0 : (words (tokens (lineText raws ++ [10])) 0).map Token.v = w :: ws := hword 0
    rw [List.range_one, List.map_singleton, h0]
  rw [this]
  exact .instr 1 w ws o hw ho _ _ (.nil 1)

/-- The spellings of a byte constant, as words. -/
def spellings (padded : Bool) (bs : Bytes) : List (List Bytes) :=
  [[b!"0x" ++ hexText bs],
   [b!"base32(" ++ base32 padded bs ++ [41]], [b!"b32(" ++ base32 padded bs ++ [41]],
   [b!"base64(" ++ base64 bs ++ [41]], [b!"b64(" ++ base64 bs ++ [41]],
   [b!"base32", base32 padded bs], [b!"b32", base32 padded bs],
   [b!"base64", base64 bs], [b!"b64", base64 bs]]

theorem symbols_chars {P : UInt8 → Prop} {base : Nat} {al : Nat → UInt8} (h : ∀ n, P (al (n % base))) :
    ∀ k n, ∀ x ∈ symbols base al k n, P x
  | 0, _, x, hx => by simp [symbols] at hx
  | k + 1, n, x, hx => by
    rw [symbols] at hx
    rcases List.mem_append.1 hx with hx | hx
    · exact symbols_chars h k _ x hx
    · rw [List.mem_singleton.1 hx]
      exact h n

theorem pads_chars {P : UInt8 → Prop} (h : P 61) (padded : Bool) (n : Nat) : ∀ x ∈ pads padded n, P x := by
  intro x hx
  unfold pads at hx
  split at hx
  · rw [List.eq_of_mem_replicate hx]; exact h
  · simp at hx

/-- The bytes of base32 and base64 texts other than the slash. -/
def Plainly (x : UInt8) : Prop := 32 < x ∧ x ≠ 34 ∧ x ≠ 41

theorem base32_chars (padded : Bool) (bs : Bytes) : ∀ x ∈ base32 padded bs, Plainly x ∧ x ≠ 47 := by
  have hal : ∀ n, n < 32 → Plainly (alphabet32 n) ∧ alphabet32 n ≠ 47 := by unfold Plainly; decide
  have hs := symbols_chars (P := fun x => Plainly x ∧ x ≠ 47) (base := 32) (al := alphabet32) (fun n => hal _ (Nat.mod_lt _ (by decide)))
  have hp := pads_chars (P := fun x => Plainly x ∧ x ≠ 47) (by unfold Plainly; decide) padded
  fun_induction base32 padded bs with
  | case1 => simp
  | case6 a b c d e s ih =>
    intro x hx
    rcases List.mem_append.1 hx with hx | hx
    · exact hs _ _ x hx
    · exact ih x hx
  | _ =>
    intro x hx
    rcases List.mem_append.1 hx with hx | hx
    · exact hs _ _ x hx
    · exact hp _ x hx

theorem base64_chars (bs : Bytes) : ∀ x ∈ base64 bs, Plainly x := by
  have hal : ∀ n, n < 64 → Plainly (alphabet64 n) := by unfold Plainly; decide
  have h61 : Plainly 61 := by unfold Plainly; decide
  have hs := symbols_chars (P := Plainly) (base := 64) (al := alphabet64) (fun n => hal _ (Nat.mod_lt _ (by decide)))
  fun_induction base64 bs with
  | case1 => simp
  | case4 a b c s ih =>
    intro x hx
    rcases List.mem_append.1 hx with hx | hx
    · exact hs _ _ x hx
    · exact ih x hx
  | _ =>
    intro x hx
    rcases List.mem_append.1 hx with hx | hx
    · exact hs _ _ x hx
    · simp only [List.mem_cons, List.not_mem_nil, or_false, or_self] at hx
      rw [hx]; exact h61

theorem base64_of (bs : Bytes) : Base64Of (base64 bs) bs := by
  have h0 : ∀ x : UInt8, Plainly x → x ≠ 13 ∧ x ≠ 10 := by unfold Plainly; apply forall_byte; decide +kernel
  exact (C14_base64_exact _ bs (.inl fun x hx => h0 x (base64_chars bs x hx))).1 (base64_roundtrip bs)

/-- The words of a spelling are a byte constant. -/
theorem spelling_bytes {padded : Bool} {bs : Bytes} {ws : List Bytes} (h : ws ∈ spellings padded bs) : IsBytes ws bs := by
  have h32 : 41 ∉ base32 padded bs := fun hx => (base32_chars padded bs _ hx).1.2.2 rfl
  simp only [spellings, List.mem_cons, List.not_mem_nil, or_false] at h
  rcases h with rfl | rfl | rfl | rfl | rfl | rfl | rfl | rfl | rfl
  · exact .hex _ _ ((C14_hex_exact _ _).1 (hexDecode_hexText bs))
  · exact .base32 _ _ _ (by decide) h32 (base32_roundtrip padded bs)
  · exact .base32 _ _ _ (by decide) h32 (base32_roundtrip padded bs)
  · exact .base64 _ _ _ (by decide) (base64_of bs)
  · exact .base64 _ _ _ (by decide) (base64_of bs)
  · exact .base32' _ _ _ (by decide) (base32_roundtrip padded bs)
  · exact .base32' _ _ _ (by decide) (base32_roundtrip padded bs)
  · exact .base64' _ _ _ (by decide) (base64_of bs)
  · exact .base64' _ _ _ (by decide) (base64_of bs)

/-- The bytes of the words of a spelling. -/
theorem spelling_chars {padded : Bool} {bs : Bytes} {ws : List Bytes} (h : ws ∈ spellings padded bs) :
    ∀ w ∈ ws, ∀ x ∈ w, 32 < x ∧ x ≠ 34 := by
  have h32 : ∀ x ∈ base32 padded bs, 32 < x ∧ x ≠ 34 := fun x hx => ⟨(base32_chars padded bs x hx).1.1, (base32_chars padded bs x hx).1.2.1⟩
  have h64 : ∀ x ∈ base64 bs, 32 < x ∧ x ≠ 34 := fun x hx => ⟨(base64_chars bs x hx).1, (base64_chars bs x hx).2.1⟩
  have happ : ∀ p ∈ [b!"base32(", b!"b32(", b!"base64(", b!"b64("], ∀ x ∈ p, 32 < x ∧ x ≠ 34 := by decide
  have hpre : ∀ p ∈ [b!"base32", b!"b32", b!"base64", b!"b64"], ∀ x ∈ p, 32 < x ∧ x ≠ 34 := by decide
  have hcl : (32 : UInt8) < 41 ∧ (41 : UInt8) ≠ 34 := by decide
  have hmid : ∀ p ∈ [b!"base32(", b!"b32(", b!"base64(", b!"b64("], ∀ t : Bytes, (∀ x ∈ t, 32 < x ∧ x ≠ 34) →
      ∀ w ∈ [p ++ t ++ [41]], ∀ x ∈ w, 32 < x ∧ x ≠ 34 := by
    intro p hp t ht w hw x hx
    rw [List.mem_singleton.1 hw] at hx
    rcases List.mem_append.1 hx with hx | hx
    · rcases List.mem_append.1 hx with hx | hx
      · exact happ p hp x hx
      · exact ht x hx
    · rw [List.mem_singleton.1 hx]; exact hcl
  have htwo : ∀ p ∈ [b!"base32", b!"b32", b!"base64", b!"b64"], ∀ t : Bytes, (∀ x ∈ t, 32 < x ∧ x ≠ 34) →
      ∀ w ∈ [p, t], ∀ x ∈ w, 32 < x ∧ x ≠ 34 := by
    intro p hp t ht w hw
    rcases List.mem_cons.1 hw with rfl | hw
    · exact hpre w hp
    · rw [List.mem_singleton.1 hw]; exact ht
  simp only [spellings, List.mem_cons, List.not_mem_nil, or_false] at h
  rcases h with rfl | rfl | rfl | rfl | rfl | rfl | rfl | rfl | rfl
  · intro w hw
    rw [List.mem_singleton.1 hw, ← hexEncode_eq]
    have hb := bare_hex bs
    intro x hx
    have hd : ∀ n, n < 16 → 32 < hexDigit n ∧ hexDigit n ≠ 34 := by decide
    rcases List.mem_append.1 hx with hx | hx
    · have h0 : ∀ x ∈ b!"0x", 32 < x ∧ x ≠ 34 := by decide
      exact h0 x hx
    · rw [hexEncode_eq] at hx
      obtain ⟨b, -, hx⟩ := List.mem_flatMap.1 hx
      have := b.toNat_lt
      simp only [hexByte, List.mem_cons, List.not_mem_nil, or_false] at hx
      rcases hx with rfl | rfl
      · exact hd _ (by omega)
      · exact hd _ (by omega)
  · exact hmid _ (by decide) _ h32
  · exact hmid _ (by decide) _ h32
  · exact hmid _ (by decide) _ h64
  · exact hmid _ (by decide) _ h64
  · exact htwo _ (by decide) _ h32
  · exact htwo _ (by decide) _ h32
  · exact htwo _ (by decide) _ h64
  · exact htwo _ (by decide) _ h64

theorem writesAll_bare : ∀ {ws : List Bytes}, (∀ w ∈ ws, Bare w) → WritesAll ws ws
  | [], _ => .nil
  | w :: ws, h => .cons _ _ _ _ (h w List.mem_cons_self).writes (writesAll_bare fun x hx => h x (List.mem_cons_of_mem _ hx))

/-- **C14** (partial: spellings that are words of a program: not the two-word spellings of no bytes,
whose second word is missing, nor those whose base64 text begins with `//`; see `C14_false`.)  For
every byte string, a `byte` line with any of its spellings is read as that byte string. -/
theorem C14_source_partial (env : Env) (padded : Bool) (bs : Bytes) (ws : List Bytes) (h : ws ∈ spellings padded bs)
    (hw : ∀ w ∈ ws, w ≠ [] ∧ w.take 2 ≠ b!"//") :
    ∃ r, process env (lineText (b!"byte" :: ws) ++ [10]) = some r ∧ r.listing = [.byte bs] ∧
      ∀ d ∈ r.diagnostics, ∀ why, d.kind ≠ .parse why := by
  refine one_line env (.cons _ _ _ _ ?_ (writesAll_bare ?_)) (by decide) (.byte ws bs (spelling_bytes h))
  · exact .bare _ (by decide) (by decide) (by decide) (by unfold Stop; decide)
  · intro w hm
    exact bare_chars (hw w hm).1 (spelling_chars h w hm) (hw w hm).2

/-- Four spellings of two bytes. -/
example : spellings true b!"hi" = [[b!"0x6869"], [b!"base32(NBUQ====)"], [b!"b32(NBUQ====)"], [b!"base64(aGk=)"], [b!"b64(aGk=)"],
    [b!"base32", b!"NBUQ===="], [b!"b32", b!"NBUQ===="], [b!"base64", b!"aGk="], [b!"b64", b!"aGk="]] := by decide +kernel

/-- **C14 fails** for base64 texts that begin with `//` and stand alone: the rest of the line is read
as a comment, and the constant is lost. -/
theorem C14_false : [b!"base64", b!"//8="] ∈ spellings true [255, 255] ∧
    (process sampleEnv b!"byte base64 //8=\n").map (·.listing) = some [.empty] := by
  decide +kernel

/-! ## String literals in programs -/

theorem literalBody_head {s : Bytes} (h : LiteralBody s) : s.head? ≠ some chQuote := by
  cases h with
  | nil => simp
  | plain c t h1 h2 => simpa using h1
  | esc c t h => simp [chBackslash, chQuote]

theorem literalBody_noQuote {s : Bytes} (h : LiteralBody s) : ∀ prev, NoQuote prev s := by
  induction h with
  | nil => exact fun p => .nil p
  | plain c t h1 h2 h ih => exact fun p => .cons _ _ _ (fun e => absurd e h1) (ih c)
  | esc c t h ih => exact fun p => .cons _ _ _ (by simp [chBackslash, chQuote]) (.cons _ _ _ (fun _ => rfl) (ih c))

/-- Removing the backslash before every quote keeps what a literal denotes. -/
theorem unescaped_denotes {s bs : Bytes} (h : Denotes s bs) : LiteralBody s → ∃ u, Unescaped s u ∧ Denotes u bs := by
  induction h with
  | nil => exact fun _ => ⟨[], .nil, .nil⟩
  | plain c s bs hc h ih =>
    intro hl
    cases hl with
    | plain _ _ h1 h2 h3 =>
      obtain ⟨u, hu, hd⟩ := ih h3
      exact ⟨c :: u, .keep _ _ _ (fun e => hc e.1) hu, .plain _ _ _ hc hd⟩
    | esc c t h3 => exact absurd rfl hc
  | escape c v s bs hc h ih =>
    intro hl
    cases hl with
    | plain _ _ h1 h2 h3 => exact absurd rfl h2
    | esc _ _ h3 =>
      obtain ⟨u, hu, hd⟩ := ih h3
      by_cases h34 : c = 34
      · subst h34
        have : v = 34 := by rcases hc with h | h | h | h | h <;> first | exact h.2 | exact absurd h.1 (by decide)
        subst this
        exact ⟨34 :: u, .esc _ _ hu, .plain _ _ _ (by decide) hd⟩
      · refine ⟨92 :: c :: u, .keep _ _ _ ?_ (.keep _ _ _ ?_ hu), .escape _ _ _ _ hc hd⟩
        · rintro ⟨-, e⟩
          exact h34 (by simpa [chQuote] using e)
        · exact fun e => literalBody_head h3 e.2
  | hex p q a b s bs hp hq h ih =>
    intro hl
    have hne : ∀ p a, digitValue p = some a → p ≠ 92 := by
      rintro _ a h rfl
      revert h
      rw [show digitValue 92 = none by decide]
      simp
    cases hl with
    | plain _ _ h1 h2 h3 => exact absurd rfl h2
    | esc _ _ h3 =>
      cases h3 with
      | esc => exact absurd rfl (hne _ _ hp)
      | plain _ _ hp1 hp2 h4 =>
        cases h4 with
        | esc => exact absurd rfl (hne _ _ hq)
        | plain _ _ hq1 hq2 h5 =>
          obtain ⟨u, hu, hd⟩ := ih h5
          refine ⟨92 :: 120 :: p :: q :: u, .keep _ _ _ (by simp [chQuote]) (.keep _ _ _ (by simp [chBackslash])
            (.keep _ _ _ (fun e => hp2 e.1) (.keep _ _ _ (fun e => hq2 e.1) hu))), .hex _ _ _ _ _ _ hp hq hd⟩

/-- **C73** (partial: literals that do not end in a backslash before the closing quote; see
`C73_false`.)  A `byte` line with a string literal is read as the bytes that the literal denotes. -/
theorem C73_string_partial (env : Env) (body bs : Bytes) (h : Denotes body bs) (hl : LiteralBody body)
    (hb : body.getLast? ≠ some 92) :
    ∃ r, process env (b!"byte " ++ 34 :: (body ++ [34]) ++ [10]) = some r ∧ r.listing = [.byte bs] ∧
      ∀ d ∈ r.diagnostics, ∀ why, d.kind ≠ .parse why := by
  obtain ⟨u, hu, hd⟩ := unescaped_denotes h hl
  have hlast : lastByte body ≠ chBackslash := by
    unfold lastByte
    cases hg : body.getLast? with
    | none => decide
    | some x =>
      intro e
      exact hb (by rw [hg, show x = 92 from e])
  refine one_line env (raws := [b!"byte", 34 :: (body ++ [34])]) (.cons _ _ _ _ ?_ (.cons _ _ _ _ (.quoted body u hu
    (literalBody_noQuote hl _) hlast) .nil)) (by decide) (.byte _ bs (.string u bs hd))
  exact .bare _ (by decide) (by decide) (by decide) (by unfold Stop; decide)

theorem hexByte_chars (b : UInt8) : ∃ p q, hexByte b = [p, q] ∧ p ≠ 34 ∧ p ≠ 92 ∧ q ≠ 34 ∧ q ≠ 92 := by
  have hd : ∀ n, n < 16 → hexDigit n ≠ 34 ∧ hexDigit n ≠ 92 := by decide
  have := b.toNat_lt
  have h1 := hd (b.toNat / 16) (by omega)
  have h2 := hd (b.toNat % 16) (by omega)
  exact ⟨_, _, rfl, h1.1, h1.2, h2.1, h2.2⟩

/-- The usual escaping of one byte. -/
theorem usual_byte (b : UInt8) : (∀ t, LiteralBody t → LiteralBody (escapeUsual [b] ++ t)) ∧
    escapeUsual [b] ≠ [] ∧ (b ≠ 92 → (escapeUsual [b]).getLast? ≠ some 92) := by
  obtain ⟨p, q, hpq, h1, h2, h3, h4⟩ := hexByte_chars b
  unfold escapeUsual
  simp only [List.flatMap_cons, List.flatMap_nil, List.append_nil, hpq]
  split
  · exact ⟨fun t ht => .esc _ _ ht, by simp, by simp⟩
  split
  · exact ⟨fun t ht => .esc _ _ ht, by simp, by simp⟩
  split
  · exact ⟨fun t ht => .esc _ _ ht, by simp, by simp⟩
  split
  · rename_i h
    exact ⟨fun t ht => .esc _ _ ht, by simp, fun hb => absurd h hb⟩
  split
  · exact ⟨fun t ht => .esc _ _ ht, by simp, by simp⟩
  rename_i n92 n34
  split
  · exact ⟨fun t ht => .plain _ _ n34 n92 ht, by simp, by simp⟩
  · exact ⟨fun t ht => .esc _ _ (.plain _ _ h1 h2 (.plain _ _ h3 h4 ht)), by simp, by simpa using fun _ => h4⟩

theorem escapeUsual_cons (b : UInt8) (bs : Bytes) : escapeUsual (b :: bs) = escapeUsual [b] ++ escapeUsual bs := by
  simp [escapeUsual]

theorem usual_body (bs : Bytes) : LiteralBody (escapeUsual bs) := by
  induction bs with
  | nil => exact .nil
  | cons b bs ih => rw [escapeUsual_cons]; exact (usual_byte b).1 _ ih

theorem usual_last {bs : Bytes} (h : bs.getLast? ≠ some 92) : (escapeUsual bs).getLast? ≠ some 92 := by
  rcases List.eq_nil_or_concat bs with rfl | ⟨bs, b, rfl⟩
  · simp [escapeUsual]
  · have e : escapeUsual (bs ++ [b]) = escapeUsual bs ++ escapeUsual [b] := by simp [escapeUsual]
    rw [List.concat_eq_append] at h ⊢
    rw [e, List.getLast?_append_of_ne_nil _ (usual_byte b).2.1]
    exact (usual_byte b).2.2 (by simpa using h)

theorem all_body (bs : Bytes) : LiteralBody (escapeAll bs) ∧ (escapeAll bs).getLast? ≠ some 92 := by
  constructor
  · induction bs with
    | nil => exact .nil
    | cons b bs ih =>
      obtain ⟨p, q, hpq, h1, h2, h3, h4⟩ := hexByte_chars b
      have e : escapeAll (b :: bs) = 92 :: 120 :: p :: q :: escapeAll bs := by simp [escapeAll, hpq]
      rw [e]
      exact .esc _ _ (.plain _ _ h1 h2 (.plain _ _ h3 h4 ih))
  · rcases List.eq_nil_or_concat bs with rfl | ⟨bs, b, rfl⟩
    · simp [escapeAll]
    · obtain ⟨p, q, hpq, h1, h2, h3, h4⟩ := hexByte_chars b
      have e : escapeAll (bs ++ [b]) = escapeAll bs ++ [92, 120, p, q] := by simp [escapeAll, hpq]
      rw [List.concat_eq_append, e, List.getLast?_append_of_ne_nil _ (by simp)]
      simpa using h4

/-- **C73** Every byte string has a literal that is read back, in a program, as that byte string: the
one that escapes every byte, and, unless the last byte is a backslash, the usual one. -/
theorem C73_roundtrip (env : Env) (bs : Bytes) :
    (∃ r, process env (b!"byte " ++ 34 :: (escapeAll bs ++ [34]) ++ [10]) = some r ∧ r.listing = [.byte bs]) ∧
    (bs.getLast? ≠ some 92 →
      ∃ r, process env (b!"byte " ++ 34 :: (escapeUsual bs ++ [34]) ++ [10]) = some r ∧ r.listing = [.byte bs]) := by
  constructor
  · obtain ⟨r, h1, h2, -⟩ := C73_string_partial env _ bs (denotes_escapeAll bs) (all_body bs).1 (all_body bs).2
    exact ⟨r, h1, h2⟩
  · intro h
    obtain ⟨r, h1, h2, -⟩ := C73_string_partial env _ bs (denotes_escapeUsual bs) (usual_body bs) (usual_last h)
    exact ⟨r, h1, h2⟩

/-- Escapes of all kinds. -/
example : Denotes b!"a\\\\\\\"\\x41b" [97, 92, 34, 65, 98] ∧ LiteralBody b!"a\\\\\\\"\\x41b" :=
  ⟨.plain _ _ _ (by decide) (.escape 92 92 _ _ (by simp [escapeOf]) (.escape 34 34 _ _ (by simp [escapeOf])
    (.hex 52 49 4 1 _ _ (by decide) (by decide) (.plain _ _ _ (by decide) .nil)))),
   .plain _ _ (by decide) (by decide) (.esc _ _ (.esc _ _ (.esc _ _ (.plain _ _ (by decide) (by decide)
    (.plain _ _ (by decide) (by decide) (.plain _ _ (by decide) (by decide) .nil))))))⟩

/-- **C73 fails** for a literal ending in an escaped backslash: its closing quote is taken for an escaped one. -/
theorem C73_false : Denotes b!"\\\\" [92] ∧ LiteralBody b!"\\\\" ∧
    (process sampleEnv (b!"byte " ++ 34 :: (b!"\\\\" ++ [34]) ++ [10])).map (·.listing) = some [.empty] :=
  ⟨.escape 92 92 _ _ (by simp [escapeOf]) .nil, .esc _ _ .nil, by decide +kernel⟩

end Teal.Props
