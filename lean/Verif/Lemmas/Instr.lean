import Verif.Spec.Instr
import Verif.Lemmas.Words
import Verif.Props.Numbers

/-! Lemmas relating the readers of words to the grammar of instructions. -/

namespace Teal
open Spec P Props

/-! ## Decoders -/

theorem hexDecode_iff (s bs : Bytes) : hexDecode s = some bs ↔ HexOf s bs := by
  constructor
  · fun_induction hexDecode s generalizing bs with
    | case1 => intro h; injection h with h; subst h; exact .nil
    | case2 => intro h; cases h
    | case3 p q s a b hq hp ih =>
      intro h
      obtain ⟨r, h1, rfl⟩ := Option.map_eq_some_iff.1 h
      exact .byte p q a b s r (by rw [← hexVal_eq]; exact hp) (by rw [← hexVal_eq]; exact hq) (ih r h1)
    | case4 => intro h; cases h
  · intro h
    induction h with
    | nil => rfl
    | byte p q a b s bs hp hq h ih =>
      rw [hexDecode, hexVal_eq, hexVal_eq, hp, hq]
      simp [ih]

theorem b64Val_some {c : UInt8} {n : Nat} (h : b64Val c = some n) : n < 64 ∧ c = alphabet64 n := by
  revert n
  revert c
  have : ∀ c : UInt8, ((b64Val c).all fun n => decide (n < 64) && decide (c = alphabet64 n)) = true := by
    apply forall_byte; decide +kernel
  intro c n h
  have h1 := this c
  rw [h] at h1
  simpa using h1

theorem alphabet64_ne_pad {n : Nat} (h : n < 64) : alphabet64 n ≠ 61 := (alphabet64_facts n h).1

theorem bigEndian3 (x y z : UInt8) : bigEndian [x, y, z] = (x.toNat * 256 + y.toNat) * 256 + z.toNat := by
  simp [bigEndian]

theorem toNat_ofNat_lt {n : Nat} (h : n < 256) : (UInt8.ofNat n).toNat = n := by
  simp [UInt8.toNat_ofNat']; omega

theorem b64Loop_group (a b c d : Nat) (ha : a < 64) (hb : b < 64) (hc : c < 64) (hd : d < 64) (s : Bytes) :
    b64Loop ([a, b, c, d].map alphabet64 ++ s) = (b64Loop s).map fun r =>
        UInt8.ofNat (a * 4 + b / 16) :: UInt8.ofNat (b % 16 * 16 + c / 4) ::
        UInt8.ofNat (c % 4 * 64 + d) :: r := by
  have hd' := alphabet64_ne_pad hd
  simp only [List.map_cons, List.map_nil, List.cons_append, List.nil_append]
  rw [b64Loop]
  · rw [b64Val_alphabet a ha, b64Val_alphabet b hb, b64Val_alphabet c hc, b64Val_alphabet d hd]
  · intro _ h1 _; exact hd' h1
  · intro h1 _; exact hd' h1

theorem pack_one (a b : Nat) : (a * 64 + b) / 16 = a * 4 + b / 16 := by omega

theorem b64Loop_of {s bs : Bytes} (h : Base64Of s bs) : b64Loop s = some bs := by
  induction h with
  | nil => rfl
  | group a b c d x y z s bs ha hb hc hd hv h ih =>
    rw [b64Loop_group a b c d ha hb hc hd, ih]
    rw [bigEndian3] at hv
    simp only [numeral, List.foldl_cons, List.foldl_nil] at hv
    have h1 := x.toNat_lt; have h2 := y.toNat_lt; have h3 := z.toNat_lt
    simp only [Option.map_some, Option.some.injEq, List.cons.injEq, and_true]
    exact ⟨byte_eq_ofNat _ _ (by omega), byte_eq_ofNat _ _ (by omega), byte_eq_ofNat _ _ (by omega)⟩
  | two a b c x y ha hb hc hv =>
    have hc' := alphabet64_ne_pad hc
    simp only [List.map_cons, List.map_nil, List.cons_append, List.nil_append]
    rw [b64Loop]
    · rw [b64Val_alphabet a ha, b64Val_alphabet b hb, b64Val_alphabet c hc]
      simp only [numeral, List.foldl_cons, List.foldl_nil, bigEndian] at hv
      have h1 := x.toNat_lt; have h2 := y.toNat_lt
      simp only [Option.some.injEq, List.cons.injEq, and_true]
      exact ⟨byte_eq_ofNat _ _ (by omega), byte_eq_ofNat _ _ (by omega)⟩
    · intro h1; exact hc' h1
  | one a b x ha hb hv =>
    simp only [List.map_cons, List.map_nil, List.cons_append, List.nil_append]
    rw [b64Loop, b64Val_alphabet a ha, b64Val_alphabet b hb]
    simp only [numeral, List.foldl_cons, List.foldl_nil, bigEndian] at hv
    have h1 := x.toNat_lt
    simp only [Option.some.injEq, List.cons.injEq, and_true]
    have h2 : a * 4 + b / 16 = x.toNat := by
      simp only [Nat.zero_mul, Nat.zero_add, Nat.reducePow] at hv
      exact (pack_one a b).symm.trans hv.symm
    exact byte_eq_ofNat x (a * 4 + b / 16) h2

theorem of_b64Loop (s bs : Bytes) (h : b64Loop s = some bs) : Base64Of s bs := by
  fun_induction b64Loop s generalizing bs with
  | case1 => injection h with h; subst h; exact .nil
  | case2 a b x y hy hx =>
    injection h with h; subst h
    obtain ⟨h1, rfl⟩ := b64Val_some hx
    obtain ⟨h2, rfl⟩ := b64Val_some hy
    exact .one x y _ h1 h2 (by
      simp only [bigEndian, numeral, List.foldl_cons, List.foldl_nil]
      rw [toNat_ofNat_lt (by omega)]; omega)
  | case3 => cases h
  | case4 a b c _ x y z hz hy hx =>
    injection h with h; subst h
    obtain ⟨h1, rfl⟩ := b64Val_some hx
    obtain ⟨h2, rfl⟩ := b64Val_some hy
    obtain ⟨h3, rfl⟩ := b64Val_some hz
    exact .two x y z _ _ h1 h2 h3 (by
      simp only [bigEndian, numeral, List.foldl_cons, List.foldl_nil]
      rw [toNat_ofNat_lt (by omega), toNat_ofNat_lt (by omega)]; omega)
  | case5 => cases h
  | case6 a b c d s _ _ x y z w hw hz hy hx ih =>
    obtain ⟨r, h5, rfl⟩ := Option.map_eq_some_iff.1 h
    obtain ⟨h1, rfl⟩ := b64Val_some hx
    obtain ⟨h2, rfl⟩ := b64Val_some hy
    obtain ⟨h3, rfl⟩ := b64Val_some hz
    obtain ⟨h4, rfl⟩ := b64Val_some hw
    exact .group x y z w _ _ _ s r h1 h2 h3 h4 (by
      rw [bigEndian3]
      simp only [numeral, List.foldl_cons, List.foldl_nil]
      rw [toNat_ofNat_lt (by omega), toNat_ofNat_lt (by omega), toNat_ofNat_lt (by omega)]; omega) (ih r h5)
  | case7 => cases h
  | case8 => cases h

theorem base64Of_chars {s bs : Bytes} (h : Base64Of s bs) : ∀ c ∈ s, c = 61 ∨ ∃ n, n < 64 ∧ c = alphabet64 n := by
  induction h with
  | nil => simp
  | group a b c d x y z s bs ha hb hc hd hv h ih =>
    intro e he
    rcases List.mem_append.1 he with he | he
    · simp only [List.map_cons, List.map_nil, List.mem_cons, List.not_mem_nil, or_false] at he
      rcases he with rfl | rfl | rfl | rfl
      · exact .inr ⟨a, ha, rfl⟩
      · exact .inr ⟨b, hb, rfl⟩
      · exact .inr ⟨c, hc, rfl⟩
      · exact .inr ⟨d, hd, rfl⟩
    · exact ih e he
  | two a b c x y ha hb hc hv =>
    intro e he
    simp only [List.map_cons, List.map_nil, List.cons_append, List.nil_append, List.mem_cons, List.not_mem_nil, or_false] at he
    rcases he with rfl | rfl | rfl | rfl
    · exact .inr ⟨a, ha, rfl⟩
    · exact .inr ⟨b, hb, rfl⟩
    · exact .inr ⟨c, hc, rfl⟩
    · exact .inl rfl
  | one a b x ha hb hv =>
    intro e he
    simp only [List.map_cons, List.map_nil, List.cons_append, List.nil_append, List.mem_cons, List.not_mem_nil, or_false] at he
    rcases he with rfl | rfl | rfl | rfl
    · exact .inr ⟨a, ha, rfl⟩
    · exact .inr ⟨b, hb, rfl⟩
    · exact .inl rfl
    · exact .inl rfl

theorem base64Of_facts {s bs : Bytes} (h : Base64Of s bs) : ∀ c ∈ s, c ≠ 13 ∧ c ≠ 10 ∧ c ≠ 34 ∧ c ≠ 41 := by
  intro c hc
  rcases base64Of_chars h c hc with rfl | ⟨n, hn, rfl⟩
  · decide
  · have : ∀ n : Fin 64, alphabet64 n.val ≠ 13 ∧ alphabet64 n.val ≠ 10 ∧ alphabet64 n.val ≠ 34 ∧ alphabet64 n.val ≠ 41 := by decide
    exact this ⟨n, hn⟩

/-- A text of the kind the lexer makes words of: without line breaks, unless it is quoted. -/
def Wordy (w : Bytes) : Prop := (∀ x ∈ w, x ≠ 13 ∧ x ≠ 10) ∨ ∃ body, w = 34 :: (body ++ [34])

theorem b64Decode_iff {s : Bytes} (hs : Wordy s) (bs : Bytes) : b64Decode s = some bs ↔ Base64Of s bs := by
  unfold b64Decode
  constructor
  · intro h
    rcases hs with hs | ⟨body, rfl⟩
    · rw [stripNewlines_eq s hs] at h
      exact of_b64Loop s bs h
    · exfalso
      have h1 := of_b64Loop _ _ h
      have h2 : (34 : UInt8) ∈ stripNewlines (34 :: (body ++ [34])) := by
        unfold stripNewlines
        exact List.mem_filter.2 ⟨List.mem_cons_self, by decide⟩
      exact (base64Of_facts h1 34 h2).2.2.1 rfl
  · intro h
    rw [stripNewlines_eq s fun x hx => ⟨(base64Of_facts h x hx).1, (base64Of_facts h x hx).2.1⟩]
    exact b64Loop_of h

/-! ## Byte constants -/

theorem hasPrefix_iff (s p : Bytes) : hasPrefix s p = true ↔ ∃ t, s = p ++ t := by
  unfold hasPrefix
  rw [List.isPrefixOf_iff_prefix]
  constructor
  · rintro ⟨t, h⟩; exact ⟨t, h.symm⟩
  · rintro ⟨t, h⟩; exact ⟨t, h.symm⟩

theorem findIdx_first {p : UInt8 → Bool} (q t : Bytes) (c : UInt8) (hq : ∀ x ∈ q, p x = false) (hc : p c = true) :
    (q ++ c :: t).findIdx p = q.length := by
  induction q with
  | nil => simp [List.findIdx_cons, hc]
  | cons x q ih =>
    rw [List.cons_append, List.findIdx_cons, hq x List.mem_cons_self, ih fun y hy => hq y (List.mem_cons_of_mem _ hy)]
    rfl

theorem split_first {c : UInt8} {t : Bytes} (h : c ∈ t) : ∃ b z, t = b ++ c :: z ∧ c ∉ b := by
  induction t with
  | nil => simp at h
  | cons x t ih =>
    by_cases hx : x = c
    · exact ⟨[], t, by simp [hx], by simp⟩
    · obtain ⟨b, z, h1, h2⟩ := ih (by simpa [Ne.symm hx] using h)
      exact ⟨x :: b, z, by simp [h1], by simp [Ne.symm hx, h2]⟩

theorem parenBody_iff (q t body : Bytes) (hq : ∀ x ∈ q, x ≠ 40 ∧ x ≠ 41) :
    parenBody (q ++ 40 :: t) = some body ↔ ∃ z, t = body ++ 41 :: z ∧ 41 ∉ body := by
  have h1 : (q ++ 40 :: t).findIdx (fun x => decide (x = 40)) = q.length :=
    findIdx_first q t 40 (fun x hx => by simp [(hq x hx).1]) (by simp)
  unfold parenBody
  by_cases ht : (41 : UInt8) ∈ t
  · obtain ⟨b, z, rfl, hb⟩ := split_first ht
    have h2 : (q ++ 40 :: (b ++ 41 :: z)).findIdx (fun x => decide (x = 41)) = q.length + (b.length + 1) := by
      have := findIdx_first (p := fun x => decide (x = 41)) (q ++ 40 :: b) z 41 (fun x hx => by
        rcases List.mem_append.1 hx with hx | hx
        · simp [(hq x hx).2]
        · rcases List.mem_cons.1 hx with rfl | hx
          · decide
          · simp only [decide_eq_false_iff_not]; rintro rfl; exact hb hx) (by simp)
      simpa using this
    simp only [h1, h2]
    have h3 : q.length + (b.length + 1) < (q ++ 40 :: (b ++ 41 :: z)).length := by simp
    rw [if_pos h3]
    have h4 : List.drop (q.length + 1) (List.take (q.length + (b.length + 1)) (q ++ 40 :: (b ++ 41 :: z))) = b := by
      have : q ++ 40 :: (b ++ 41 :: z) = (q ++ [40] ++ b) ++ 41 :: z := by simp
      rw [this, List.take_append_of_le_length (by simp <;> omega), List.take_of_length_le (by simp <;> omega),
        List.drop_append_of_le_length (by simp), List.drop_of_length_le (by simp), List.nil_append]
    rw [h4]
    constructor
    · intro h; injection h with h; subst h; exact ⟨z, rfl, hb⟩
    · rintro ⟨z', h, hb'⟩
      congr 1
      have key : ∀ (b b' z z' : Bytes), (41 : UInt8) ∉ b → 41 ∉ b' → b ++ 41 :: z = b' ++ 41 :: z' → b = b' := by
        intro b
        induction b with
        | nil =>
          intro b' z z' _ h2 h
          cases b' with
          | nil => rfl
          | cons x b' => injection h with h; subst h; simp at h2
        | cons x b ih =>
          intro b' z z' h1 h2 h
          cases b' with
          | nil => injection h with h; subst h; simp at h1
          | cons y b' =>
            injection h with h h'
            subst h
            rw [ih b' z z' (fun h => h1 (List.mem_cons_of_mem _ h)) (fun h => h2 (List.mem_cons_of_mem _ h)) h']
      exact key b body z z' hb hb' h
  · have h2 : (q ++ 40 :: t).findIdx (fun x => decide (x = 41)) = (q ++ 40 :: t).length := by
      rw [List.findIdx_eq_length]
      intro x hx
      rcases List.mem_append.1 hx with hx | hx
      · simp [(hq x hx).2]
      · rcases List.mem_cons.1 hx with rfl | hx
        · decide
        · simp only [decide_eq_false_iff_not]; rintro rfl; exact ht hx
    simp only [h1, h2, Nat.lt_irrefl, if_false]
    constructor
    · intro h; cases h
    · rintro ⟨z, rfl, -⟩; exact (ht (by simp)).elim

theorem paren_prefix : ∀ p ∈ [b!"base32(", b!"b32(", b!"base64(", b!"b64("], ∃ q, p = q ++ [40] ∧ ∀ x ∈ q, x ≠ 40 ∧ x ≠ 41 := by
  intro p hp
  simp only [List.mem_cons, List.not_mem_nil, or_false] at hp
  rcases hp with rfl | rfl | rfl | rfl
  · exact ⟨b!"base32", rfl, by decide⟩
  · exact ⟨b!"b32", rfl, by decide⟩
  · exact ⟨b!"base64", rfl, by decide⟩
  · exact ⟨b!"b64", rfl, by decide⟩

theorem paren_iff {p t : Bytes} (hp : p ∈ [b!"base32(", b!"b32(", b!"base64(", b!"b64("]) (hc : Closed (p ++ t))
    (body : Bytes) : parenBody (p ++ t) = some body ↔ t = body ++ [41] ∧ 41 ∉ body := by
  have hc' := hc p hp
  clear hc
  obtain ⟨q, rfl, hq⟩ := paren_prefix p hp
  have e : q ++ [40] ++ t = q ++ 40 :: t := by simp
  rw [e] at hc' ⊢
  rw [parenBody_iff q t body hq]
  constructor
  · rintro ⟨z, rfl, h⟩
    have := hc' body z (by simp)
    subst this
    exact ⟨rfl, h⟩
  · rintro ⟨rfl, h⟩; exact ⟨[], rfl, h⟩

theorem bytesAt_hex (s : Bytes) (ws : List Bytes) :
    bytesAt (b!"0x" ++ s) ws = (hexDecode s).map fun a => (a, ws) := by
  unfold bytesAt
  simp [hasPrefix, List.isPrefixOf]

theorem bytesAt_b32 (p t : Bytes) (hp : p ∈ [b!"base32(", b!"b32("]) (ws : List Bytes) :
    bytesAt (p ++ t) ws = ((parenBody (p ++ t)).bind base32DecodeAnyPadding).map fun a => (a, ws) := by
  unfold bytesAt
  simp only [List.mem_cons, List.not_mem_nil, or_false] at hp
  rcases hp with rfl | rfl <;> rw [if_pos (by simp [hasPrefix, List.isPrefixOf])]

theorem bytesAt_b64 (p t : Bytes) (hp : p ∈ [b!"base64(", b!"b64("]) (ws : List Bytes) :
    bytesAt (p ++ t) ws = ((parenBody (p ++ t)).bind b64Decode).map fun a => (a, ws) := by
  unfold bytesAt
  simp only [List.mem_cons, List.not_mem_nil, or_false] at hp
  rcases hp with rfl | rfl <;>
    rw [if_neg (by simp [hasPrefix, List.isPrefixOf]), if_pos (by simp [hasPrefix, List.isPrefixOf])]

theorem bytesAt_b32' (p : Bytes) (hp : p ∈ [b!"base32", b!"b32"]) (ws : List Bytes) :
    bytesAt p ws = match ws with
      | [] => none
      | w :: ws => (base32DecodeAnyPadding w).map fun a => (a, ws) := by
  unfold bytesAt
  simp only [List.mem_cons, List.not_mem_nil, or_false] at hp
  rcases hp with rfl | rfl <;> rw [if_neg (by decide), if_neg (by decide), if_neg (by decide), if_pos (by decide)] <;>
    (cases ws <;> rfl)

theorem bytesAt_b64' (p : Bytes) (hp : p ∈ [b!"base64", b!"b64"]) (ws : List Bytes) :
    bytesAt p ws = match ws with
      | [] => none
      | w :: ws => (b64Decode w).map fun a => (a, ws) := by
  unfold bytesAt
  simp only [List.mem_cons, List.not_mem_nil, or_false] at hp
  rcases hp with rfl | rfl <;>
    rw [if_neg (by decide), if_neg (by decide), if_neg (by decide), if_neg (by decide), if_pos (by decide)] <;>
    (cases ws <;> rfl)

theorem bytesAt_string (s v : Bytes) (h : Denotes s v) (ws : List Bytes) :
    bytesAt (34 :: (s ++ [34])) ws = some (v, ws) := by
  unfold bytesAt
  rw [if_neg (by simp [hasPrefix, List.isPrefixOf]), if_neg (by simp [hasPrefix, List.isPrefixOf]),
    if_neg (by simp [hasPrefix, List.isPrefixOf]), if_neg (by simp), if_neg (by simp),
    if_pos ⟨by simp, by simp [chQuote], by rw [← List.cons_append, List.getLast?_append]; simp [chQuote]⟩,
    (parseStringLiteral_quoted s v).2 h]

theorem bytesAt_of {used : List Bytes} {v : Bytes} (h : IsBytes used v) (rest : List Bytes) :
    ∃ w ws, used ++ rest = w :: ws ∧ bytesAt w ws = some (v, rest) := by
  cases h with
  | hex s v h => exact ⟨_, rest, rfl, by rw [bytesAt_hex, (hexDecode_iff s v).2 h]; rfl⟩
  | base32 p s v hp hs h =>
    refine ⟨_, rest, rfl, ?_⟩
    rw [List.append_assoc, bytesAt_b32 p _ hp]
    obtain ⟨q, rfl, hq⟩ := paren_prefix p (by
      simp only [List.mem_cons, List.not_mem_nil, or_false] at hp ⊢
      rcases hp with hp | hp
      · exact .inl hp
      · exact .inr (.inl hp))
    have e : q ++ [40] ++ (s ++ [41]) = q ++ 40 :: (s ++ 41 :: []) := by simp
    rw [e, (parenBody_iff q _ s hq).2 ⟨[], rfl, hs⟩]
    simp [h]
  | base64 p s v hp h =>
    refine ⟨_, rest, rfl, ?_⟩
    rw [List.append_assoc, bytesAt_b64 p _ hp]
    obtain ⟨q, rfl, hq⟩ := paren_prefix p (by
      simp only [List.mem_cons, List.not_mem_nil, or_false] at hp ⊢
      rcases hp with hp | hp
      · exact .inr (.inr (.inl hp))
      · exact .inr (.inr (.inr hp)))
    have e : q ++ [40] ++ (s ++ [41]) = q ++ 40 :: (s ++ 41 :: []) := by simp
    have hf := base64Of_facts h
    rw [e, (parenBody_iff q _ s hq).2 ⟨[], rfl, fun hm => (hf 41 hm).2.2.2 rfl⟩]
    simp [(b64Decode_iff (.inl fun x hx => ⟨(hf x hx).1, (hf x hx).2.1⟩) v).2 h]
  | base32' p s v hp h => exact ⟨p, s :: rest, rfl, by rw [bytesAt_b32' p hp]; simp [h]⟩
  | base64' p s v hp h =>
    have hf := base64Of_facts h
    exact ⟨p, s :: rest, rfl, by
      rw [bytesAt_b64' p hp]
      simp [(b64Decode_iff (.inl fun x hx => ⟨(hf x hx).1, (hf x hx).2.1⟩) v).2 h]⟩
  | string s v h => exact ⟨_, rest, rfl, bytesAt_string s v h rest⟩

theorem of_bytesAt {w : Bytes} {ws rest : List Bytes} {v : Bytes} (hw : ∀ x ∈ w :: ws, Wordy x) (hc : Closed w)
    (h : bytesAt w ws = some (v, rest)) : ∃ used, w :: ws = used ++ rest ∧ IsBytes used v := by
  unfold bytesAt at h
  split at h
  · rename_i hp
    rw [Bool.or_eq_true, hasPrefix_iff, hasPrefix_iff] at hp
    obtain ⟨a, h1, h2⟩ := Option.map_eq_some_iff.1 h
    injection h2 with h3 h4
    subst h3; subst h4
    obtain ⟨body, h5, h6⟩ := Option.bind_eq_some_iff.1 h1
    rcases hp with ⟨t, rfl⟩ | ⟨t, rfl⟩
    · obtain ⟨rfl, h7⟩ := (paren_iff (by simp) hc body).1 h5
      exact ⟨[_], rfl, by rw [← List.append_assoc]; exact .base32 _ body a (by simp) h7 h6⟩
    · obtain ⟨rfl, h7⟩ := (paren_iff (by simp) hc body).1 h5
      exact ⟨[_], rfl, by rw [← List.append_assoc]; exact .base32 _ body a (by simp) h7 h6⟩
  split at h
  · rename_i hp
    rw [Bool.or_eq_true, hasPrefix_iff, hasPrefix_iff] at hp
    obtain ⟨a, h1, h2⟩ := Option.map_eq_some_iff.1 h
    injection h2 with h3 h4
    subst h3; subst h4
    obtain ⟨body, h5, h6⟩ := Option.bind_eq_some_iff.1 h1
    have hww := hw w List.mem_cons_self
    rcases hp with ⟨t, rfl⟩ | ⟨t, rfl⟩
    all_goals
      obtain ⟨rfl, h7⟩ := (paren_iff (by simp) hc body).1 h5
      have hb : Wordy body := by
        rcases hww with hww | ⟨b, hb⟩
        · exact .inl fun x hx => hww x (by simp [hx])
        · injection hb with hb _; exact absurd hb (by decide)
      exact ⟨[_], rfl, by rw [← List.append_assoc]; exact .base64 _ body a (by simp) ((b64Decode_iff hb a).1 h6)⟩
  split at h
  · rename_i hp
    rw [hasPrefix_iff] at hp
    obtain ⟨t, rfl⟩ := hp
    obtain ⟨a, h1, h2⟩ := Option.map_eq_some_iff.1 h
    injection h2 with h3 h4
    subst h3; subst h4
    exact ⟨[_], rfl, .hex t a ((hexDecode_iff _ _).1 (by simpa using h1))⟩
  split at h
  · rename_i hp
    cases ws with
    | nil => cases h
    | cons x ws =>
      obtain ⟨a, h1, h2⟩ := Option.map_eq_some_iff.1 h
      injection h2 with h3 h4
      subst h3; subst h4
      exact ⟨[w, x], rfl, .base32' w x a (by simpa using hp) h1⟩
  split at h
  · rename_i hp
    cases ws with
    | nil => cases h
    | cons x ws =>
      obtain ⟨a, h1, h2⟩ := Option.map_eq_some_iff.1 h
      injection h2 with h3 h4
      subst h3; subst h4
      exact ⟨[w, x], rfl, .base64' w x a (by simpa using hp) ((b64Decode_iff (hw x (by simp)) a).1 h1)⟩
  split at h
  · rename_i hp
    cases hs : parseStringLiteral w with
    | ok val =>
      rw [hs] at h
      simp only [Option.some.injEq, Prod.mk.injEq] at h
      obtain ⟨rfl, rfl⟩ := h
      rcases parseStringLiteral_ok w val hs with ⟨rfl, -⟩ | ⟨body, rfl⟩
      · simp at hp
      · exact ⟨[_], rfl, .string body val ((parseStringLiteral_quoted body val).1 hs)⟩
    | err => rw [hs] at h; cases h
    | crash => rw [hs] at h; cases h
  · cases h

theorem bytes_iff {ws : List Bytes} (hw : ∀ x ∈ ws, Wordy x) (hc : ∀ x ∈ ws, Closed x) (ver : Nat) (v : Bytes) :
    Reader.bytes ver ws = some (v, []) ↔ IsBytes ws v := by
  constructor
  · intro h
    cases ws with
    | nil => cases h
    | cons w ws =>
      obtain ⟨used, h1, h2⟩ := of_bytesAt hw (hc w List.mem_cons_self) h
      rw [List.append_nil] at h1
      rw [h1]; exact h2
  · intro h
    obtain ⟨w, ws', h1, h2⟩ := bytesAt_of h []
    rw [List.append_nil] at h1
    rw [h1]; exact h2

theorem many_iff {α : Type} {r : Bytes → List Bytes → Option (α × List Bytes)} {one : List Bytes → α → Prop} {good : Bytes → Prop}
    (h1 : ∀ w ws v rest, (∀ x ∈ w :: ws, good x) → r w ws = some (v, rest) → ∃ used, w :: ws = used ++ rest ∧ one used v)
    (h2 : ∀ used v, one used v → ∀ rest, ∃ w ws, used ++ rest = w :: ws ∧ r w ws = some (v, rest))
    (hs : Shrinks r) (vs : List α) : ∀ (n : Nat) (ws : List Bytes), ws.length ≤ n → (∀ x ∈ ws, good x) →
    (Reader.many r n ws = some vs ↔ Several one ws vs) := by
  intro n
  induction n generalizing vs with
  | zero =>
    intro ws hn hg
    cases ws with
    | nil =>
      rw [Reader.many]
      constructor
      · intro h; injection h with h; subst h; exact .nil
      · intro h
        generalize hw : ([] : List Bytes) = ws at h
        cases h with
        | nil => rfl
        | cons ws ws' v vs h h' =>
          obtain ⟨w, x, h3, -⟩ := h2 ws v h ws'
          rw [h3] at hw; cases hw
    | cons w ws => simp at hn
  | succ n ih =>
    intro ws hn hg
    cases ws with
    | nil =>
      rw [Reader.many]
      constructor
      · intro h; injection h with h; subst h; exact .nil
      · intro h
        generalize hw : ([] : List Bytes) = ws at h
        cases h with
        | nil => rfl
        | cons ws ws' v vs h h' =>
          obtain ⟨w, x, h3, -⟩ := h2 ws v h ws'
          rw [h3] at hw; cases hw
    | cons w ws =>
      simp only [List.length_cons] at hn
      rw [Reader.many]
      constructor
      · intro h
        cases hr : r w ws with
        | none => rw [hr] at h; cases h
        | some p =>
          obtain ⟨v, rest⟩ := p
          rw [hr] at h
          obtain ⟨as, h3, rfl⟩ := Option.map_eq_some_iff.1 h
          obtain ⟨used, h4, h5⟩ := h1 w ws v rest hg hr
          have h6 := hs _ _ _ _ hr
          rw [h4]
          refine .cons _ _ _ _ h5 ((ih as rest (by omega) ?_).1 h3)
          intro x hx
          exact hg x (by rw [h4]; exact List.mem_append_right _ hx)
      · intro h
        generalize hw : w :: ws = l at h
        cases h with
        | nil => cases hw
        | cons used ws' v vs h h' =>
          obtain ⟨w', x, h3, h4⟩ := h2 used v h ws'
          rw [h3] at hw
          injection hw with hw1 hw2
          subst hw1; subst hw2
          rw [h4]
          have h6 := hs _ _ _ _ h4
          simp only [Option.map_eq_some_iff]
          refine ⟨vs, (ih vs ws' (by omega) ?_).2 h', rfl⟩
          intro x hx
          exact hg x (by rw [← h3]; exact List.mem_append_right _ hx)

theorem all_iff {α : Type} {r : Bytes → List Bytes → Option (α × List Bytes)} {one : List Bytes → α → Prop} {good : Bytes → Prop}
    (h1 : ∀ w ws v rest, (∀ x ∈ w :: ws, good x) → r w ws = some (v, rest) → ∃ used, w :: ws = used ++ rest ∧ one used v)
    (h2 : ∀ used v, one used v → ∀ rest, ∃ w ws, used ++ rest = w :: ws ∧ r w ws = some (v, rest))
    (hs : Shrinks r) (vs : List α) (ver : Nat) (ws : List Bytes) (hg : ∀ x ∈ ws, good x) :
    Reader.all r ver ws = some (vs, []) ↔ Several one ws vs := by
  unfold Reader.all
  rw [Option.map_eq_some_iff, ← many_iff h1 h2 hs vs ws.length ws (Nat.le_refl _) hg]
  constructor
  · rintro ⟨as, h, h'⟩; injection h' with h' _; subst h'; exact h
  · intro h; exact ⟨vs, h, rfl⟩

theorem bytesAll_iff {ws : List Bytes} (hw : ∀ x ∈ ws, Wordy x) (hc : ∀ x ∈ ws, Closed x) (ver : Nat) (vs : List Bytes) :
    Reader.all bytesAt ver ws = some (vs, []) ↔ Several IsBytes ws vs :=
  all_iff (good := fun x => Wordy x ∧ Closed x)
    (fun _ _ _ _ hg h => of_bytesAt (fun x hx => (hg x hx).1) (hg _ List.mem_cons_self).2 h)
    (fun _ _ h rest => bytesAt_of h rest) bytesAt_shrinks vs ver ws fun x hx => ⟨hw x hx, hc x hx⟩

theorem singles_iff {α : Type} {r : Bytes → Option α} {one : Bytes → α → Prop} (h : ∀ w v, r w = some v ↔ one w v)
    (ver : Nat) (ws : List Bytes) (vs : List α) :
    Reader.all (oneWord r) ver ws = some (vs, []) ↔ Several (Single one) ws vs := by
  refine all_iff (good := fun _ => True) ?_ ?_ (oneWord_shrinks r) vs ver ws fun _ _ => trivial
  · intro w ws v rest _ hr
    obtain ⟨a, h1, h2⟩ := Option.map_eq_some_iff.1 hr
    injection h2 with h3 h4
    subst h3; subst h4
    exact ⟨[w], rfl, w, rfl, (h w a).1 h1⟩
  · rintro used v ⟨w, rfl, h1⟩ rest
    exact ⟨w, rest, rfl, by unfold oneWord; rw [(h w v).2 h1]; rfl⟩

theorem labels_all (ver : Nat) (ws ls : List Bytes) : Reader.all (oneWord some) ver ws = some (ls, []) ↔ ws = ls := by
  unfold Reader.all
  have : ∀ (n : Nat) (ws : List Bytes), ws.length ≤ n → Reader.many (oneWord some) n ws = some ws := by
    intro n
    induction n with
    | zero => intro ws h; cases ws with
      | nil => rfl
      | cons w ws => simp at h
    | succ n ih => intro ws h; cases ws with
      | nil => rfl
      | cons w ws =>
        have e : oneWord some w ws = some (w, ws) := rfl
        rw [Reader.many, e]
        show Option.map (fun as => w :: as) (Reader.many (oneWord some) n ws) = _
        rw [ih ws (by simpa using h)]; rfl
  rw [this ws.length ws (Nat.le_refl _)]
  simp

/-! ## Fields -/

theorem nodup_get {α : Type} {l : List α} (h : l.Nodup) : ∀ (i j : Nat) (x : α), l[i]? = some x → l[j]? = some x → i = j := by
  induction l with
  | nil => intro i j x h1; simp at h1
  | cons a l ih =>
    rw [List.nodup_cons] at h
    intro i j x h1 h2
    cases i with
    | zero =>
      cases j with
      | zero => rfl
      | succ j =>
        simp only [List.getElem?_cons_zero, List.getElem?_cons_succ, Option.some.injEq] at h1 h2
        subst h1
        exact absurd (List.mem_of_getElem? h2) h.1
    | succ i =>
      cases j with
      | zero =>
        simp only [List.getElem?_cons_zero, List.getElem?_cons_succ, Option.some.injEq] at h1 h2
        subst h2
        exact absurd (List.mem_of_getElem? h1) h.1
      | succ j => rw [ih h.2 i j x (by simpa using h1) (by simpa using h2)]

theorem field_iff (g : FieldGroup) (v : Nat) (s : Bytes) (i : Nat) :
    (readFieldWith (.group g) v s).map (·.field) = some i ↔ IsField (documented g) v s i := by
  show (readField g v s).map (·.field) = some i ↔ _
  by_cases hd : ∃ d ∈ documented g, d.name = s
  · obtain ⟨d, hd, rfl⟩ := hd
    obtain ⟨j, hj⟩ := List.mem_iff_getElem?.1 hd
    rw [C15_field_version g v j d hj]
    constructor
    · intro h
      split at h
      · simp only [Option.map_some, Option.some.injEq] at h
        subst h
        exact .inl ⟨d, hj, rfl, by assumption⟩
      · cases h
    · rintro (⟨d', h1, h2, h3⟩ | ⟨h, -⟩)
      · obtain ⟨rfl, rfl⟩ : d' = d ∧ i = j := by
          have hn := nodup_get (C16_unambiguous g)
          have := hn i j d.name (by rw [List.getElem?_map, h1]; simp [h2]) (by rw [List.getElem?_map, hj]; rfl)
          subst this
          rw [h1] at hj
          exact ⟨Option.some.inj hj, rfl⟩
        rw [if_pos h3]; rfl
      · exact absurd rfl (h d hd)
  · have hno : ∀ d ∈ documented g, d.name ≠ s := fun d h1 h2 => hd ⟨d, h1, h2⟩
    constructor
    · intro h
      obtain ⟨r, h1, rfl⟩ := Option.map_eq_some_iff.1 h
      obtain ⟨-, h2, h3⟩ := (C16_by_number g v s hno r).1 h1
      exact .inr ⟨hno, h2, h3⟩
    · rintro (⟨d, h1, h2, -⟩ | ⟨-, h2, h3⟩)
      · exact absurd h2 (hno d (List.mem_of_getElem? h1))
      · rw [(C16_by_number g v s hno ⟨i, false⟩).2 ⟨rfl, h2, h3⟩]; rfl

theorem txn_iff {ok : DocTxnField → Prop} (c : FieldContext) (v : Nat) (s : Bytes) (i : Nat)
    (h0 : ∀ j d, txnFields[j]? = some d → d.name = s → ((readTxnField c v d.name).map (·.field) = some i ↔ i = j ∧ ok d)) :
    (readFieldWith (.txn c) v s).map (·.field) = some i ↔ IsTxn ok s i := by
  show (readTxnField c v s).map (·.field) = some i ↔ _
  by_cases hd : ∃ d ∈ txnFields, d.name = s
  · obtain ⟨d, hd, rfl⟩ := hd
    obtain ⟨j, hj⟩ := List.mem_iff_getElem?.1 hd
    rw [h0 j d hj rfl]
    constructor
    · rintro ⟨rfl, h⟩; exact .inl ⟨d, hj, rfl, h⟩
    · rintro (⟨d', h1, h2, h3⟩ | ⟨h, -⟩)
      · have hn : (txnFields.map (·.name)).Nodup := by
          have := C16_unambiguous .txn
          simpa [documented, List.map_map, Function.comp_def] using this
        have := nodup_get hn i j d.name (by rw [List.getElem?_map, h1]; simp [h2]) (by rw [List.getElem?_map, hj]; rfl)
        subst this
        rw [h1] at hj
        cases hj
        exact ⟨rfl, h3⟩
      · exact absurd rfl (h d hd)
  · have hno : ∀ d ∈ txnFields, d.name ≠ s := fun d h1 h2 => hd ⟨d, h1, h2⟩
    have hno' : ∀ d ∈ documented .txn, d.name ≠ s := by
      intro d hd
      obtain ⟨x, hx, rfl⟩ := List.mem_map.1 hd
      exact hno x hx
    rw [C16_txn_by_number c v s hno]
    constructor
    · intro h
      obtain ⟨r, h1, rfl⟩ := Option.map_eq_some_iff.1 h
      obtain ⟨-, h2, h3⟩ := (C16_by_number .txn v s hno' r).1 h1
      exact .inr ⟨hno, h2, h3⟩
    · rintro (⟨d, h1, h2, -⟩ | ⟨-, h2, h3⟩)
      · exact absurd h2 (hno d (List.mem_of_getElem? h1))
      · rw [(C16_by_number .txn v s hno' ⟨i, false⟩).2 ⟨rfl, h2, h3⟩]; rfl

theorem txnField_iff (v : Nat) (s : Bytes) (i : Nat) :
    (readFieldWith (.txn .txn) v s).map (·.field) = some i ↔ IsTxnField v s i := by
  refine txn_iff .txn v s i fun j d hj hs => ?_
  rw [C15_txn_version v j d hj]
  split <;> simp_all [eq_comm]

theorem innerField_iff (v : Nat) (s : Bytes) (i : Nat) :
    (readFieldWith (.txn .itxn) v s).map (·.field) = some i ↔ IsInnerField v s i := by
  refine txn_iff .itxn v s i fun j d hj hs => ?_
  rw [C15_itxn_version v j d hj]
  cases d.inner with
  | none => simp
  | some n =>
    simp only
    split <;> simp_all [eq_comm]

theorem arrayField_iff (v : Nat) (s : Bytes) (i : Nat) (h : ∀ d ∈ txnFields, d.name = s → d.array = true → d.since ≤ v) :
    (readFieldWith (.txn .txna) v s).map (·.field) = some i ↔ IsArrayField v s i := by
  refine txn_iff .txna v s i fun j d hj hs => ?_
  rw [C15_txna_partial v j d hj]
  have h1 := h d (List.mem_of_getElem? hj) hs
  clear h hj
  split
  · rename_i h2
    simp only [Option.map_some, Option.some.injEq]
    exact ⟨fun h => ⟨h.symm, h2, h1 h2⟩, fun h => h.1.symm⟩
  · rename_i h2
    simp only [Option.map_none, reduceCtorEq, false_iff]
    exact fun h => h2 h.2.1

theorem indexedField_iff (v : Nat) (s : Bytes) (i : Nat) (h : ∀ d ∈ txnFields, d.name = s → d.since ≤ v → d.array = true) :
    (readFieldWith (.txn .txn) v s).map (·.field) = some i ↔ IsArrayField v s i := by
  refine txn_iff .txn v s i fun j d hj hs => ?_
  rw [C15_txn_version v j d hj]
  have h1 := h d (List.mem_of_getElem? hj) hs
  clear h hj
  split
  · rename_i h2
    simp only [Option.map_some, Option.some.injEq]
    exact ⟨fun h => ⟨h.symm, h1 h2, h2⟩, fun h => h.1.symm⟩
  · rename_i h2
    simp only [Option.map_none, reduceCtorEq, false_iff]
    exact fun h => h2 h.2.2

/-! ## Instructions -/

theorem word_bind {α : Type} {r : Nat → Bytes → Option α} {f : α → Reader Op} {ver : Nat} {ws : List Bytes} {o : Op} :
    (Reader.word r).bind f ver ws = some (o, []) ↔
      ∃ x xs a, ws = x :: xs ∧ r ver x = some a ∧ f a ver xs = some (o, []) := by
  unfold Reader.bind Reader.word
  cases ws with
  | nil => simp
  | cons x xs =>
    cases h : r ver x with
    | none =>
      simp only [h, Option.map_none, reduceCtorEq, false_iff]
      rintro ⟨_, _, a, h1, h2, -⟩; cases h1; rw [h] at h2; cases h2
    | some a =>
      simp only [h, Option.map_some]
      constructor
      · intro h'; exact ⟨x, xs, a, rfl, h, h'⟩
      · rintro ⟨_, _, a', h1, h2, h3⟩
        cases h1; rw [h] at h2; cases h2; exact h3

theorem opt_bind {α : Type} {r : Bytes → Option α} {f : Option α → Reader Op} {ver : Nat} {ws : List Bytes} {o : Op} :
    (Reader.opt r).bind f ver ws = some (o, []) ↔
      (ws = [] ∧ f none ver [] = some (o, [])) ∨
      ∃ x xs a, ws = x :: xs ∧ r x = some a ∧ f (some a) ver xs = some (o, []) := by
  unfold Reader.bind Reader.opt
  cases ws with
  | nil => simp
  | cons x xs =>
    cases h : r x with
    | none =>
      simp only [h, Option.map_none, reduceCtorEq, false_iff]
      rintro (⟨h1, -⟩ | ⟨_, _, a, h1, h2, -⟩)
      · cases h1
      · cases h1; rw [h] at h2; cases h2
    | some a =>
      simp only [h, Option.map_some]
      constructor
      · intro h'; exact .inr ⟨x, xs, a, rfl, h, h'⟩
      · rintro (⟨h1, -⟩ | ⟨_, _, a', h1, h2, h3⟩)
        · cases h1
        · cases h1; rw [h] at h2; cases h2; exact h3

theorem ret_iff {a o : Op} {ver : Nat} {ws : List Bytes} :
    Reader.ret a ver ws = some (o, []) ↔ a = o ∧ ws = [] := by
  unfold Reader.ret
  simp

theorem any_bind {α : Type} {m : Reader α} {g : α → Op} {ver : Nat} {ws : List Bytes} {o : Op} :
    m.bind (fun a => Reader.ret (g a)) ver ws = some (o, []) ↔ ∃ a, m ver ws = some (a, []) ∧ g a = o := by
  unfold Reader.bind Reader.ret
  cases m ver ws with
  | none => simp
  | some p =>
    obtain ⟨a, rest⟩ := p
    simp only [Option.some.injEq, Prod.mk.injEq]
    constructor
    · rintro ⟨h1, rfl⟩; exact ⟨a, ⟨rfl, rfl⟩, h1⟩
    · rintro ⟨_, ⟨rfl, rfl⟩, h⟩; exact ⟨h, rfl⟩

theorem quotedWord_iff {w x : Bytes} (hw : w ≠ [34]) : quotedWord w = some x ↔ x = w ∧ ∃ s, w = 34 :: (s ++ [34]) := by
  unfold quotedWord
  constructor
  · intro h
    split at h
    · rename_i hq
      injection h with h
      refine ⟨h.symm, ?_⟩
      cases w with
      | nil => simp at hq
      | cons c t =>
        have hc : c = 34 := by simpa [chQuote] using hq.1
        subst hc
        rcases List.eq_nil_or_concat t with rfl | ⟨s, y, rfl⟩
        · exact absurd rfl hw
        · rw [List.concat_eq_append, ← List.cons_append, List.getLast?_append] at hq
          have hy : y = 34 := by simpa [chQuote] using hq.2
          subst hy
          exact ⟨s, by rw [List.concat_eq_append]⟩
    · cases h
  · rintro ⟨rfl, s, rfl⟩
    rw [if_pos]
    refine ⟨by simp [chQuote], ?_⟩
    rw [← List.cons_append, List.getLast?_append]
    simp [chQuote]

/-- What the rows of the opcode table say. -/
def rowOk (e : OpEntry) : Bool :=
  match e.shape with
  | .plain k => decide ((e.name, k) ∈ plainOps)
  | .u8 k => decide ((e.name, k) ∈ byteOps)
  | .u8u8 k => decide ((e.name, k) ∈ byteByteOps)
  | .i8 k => decide ((e.name, k) ∈ [(b!"frame_dig", .frameDig), (b!"frame_bury", .frameBury)])
  | .field (.group g) k => decide ((e.name, documented g, k) ∈ fieldOps)
  | .field (.txn .txn) k => decide ((e.name, k) ∈ [(b!"txn", .txn), (b!"gtxns", .gtxns), (b!"itxn", .itxn)])
  | .field (.txn .itxn) k => decide (e.name = b!"itxn_field" ∧ k = .itxnField)
  | .field (.txn .txna) k => decide ((e.name, k) ∈ [(b!"txnas", .txnas), (b!"gtxnsas", .gtxnsas), (b!"itxnas", .itxnas)])
  | .fieldIdx k => decide ((e.name, k) ∈ [(b!"txna", .txna), (b!"gtxnsa", .gtxnsa), (b!"itxna", .itxna)])
  | .fieldOptIdx k k' => decide ((e.name, k, k') ∈ [(b!"txn", .txn, .txna), (b!"gtxns", .gtxns, .gtxnsa)])
  | .groupField .txn k => decide ((e.name, k) ∈ [(b!"gitxn", .gitxn)])
  | .groupField .txna k => decide ((e.name, k) ∈ [(b!"gtxnas", .gtxnas), (b!"gitxnas", .gitxnas)])
  | .groupField .itxn _ => false
  | .gtxn => decide (e.name = b!"gtxn")
  | .gtxna => decide (e.name = b!"gtxna")
  | .gitxna => decide (e.name = b!"gitxna")
  | .int => decide (e.name = b!"int")
  | .pushint => decide (e.name = b!"pushint")
  | .byte => decide (e.name = b!"byte")
  | .pushbytes => decide (e.name = b!"pushbytes")
  | .addr => decide (e.name = b!"addr")
  | .method => decide (e.name = b!"method")
  | .intcblock => decide (e.name = b!"intcblock")
  | .pushints => decide (e.name = b!"pushints")
  | .bytecblock => decide (e.name = b!"bytecblock")
  | .pushbytess => decide (e.name = b!"pushbytess")
  | .branch k => decide ((e.name, k) ∈ [(b!"bnz", .bnz), (b!"bz", .bz), (b!"b", .b), (b!"callsub", .callsub)])
  | .switch => decide (e.name = b!"switch")
  | .match_ => decide (e.name = b!"match")
  | .replace => decide (e.name = b!"replace")
  | .extract => decide (e.name = b!"extract")

theorem rows_ok : ∀ e ∈ opsList, rowOk e = true := by decide +kernel

theorem instr_of_eval {addrOk : Bytes → Bool} {ver : Nat} {w : Bytes} {e : OpEntry} {ws : List Bytes} {o : Op}
    (he : opsGet w = some e) (hw : ∀ x ∈ ws, Wordy x ∧ x ≠ [34]) (hr : Regular ver w ws)
    (h : evalShape addrOk e.shape ver ws = some (o, [])) : Instr addrOk ver w ws o := by
  obtain ⟨h1, rfl⟩ := opsGet_mem he
  have hrow := rows_ok e h1
  unfold rowOk at hrow
  have hu : ∀ {x n}, readUint8 x = some n → IsByte x n := fun h => (C11_uint8 _ _).1 h
  have hf : ∀ x ∈ ws, ∀ {n}, e.name ∈ arrayOps → (readFieldWith (.txn .txna) ver x).map (·.field) = some n →
      IsArrayField ver x n := fun x hx n ha h => (arrayField_iff ver x n (hr.array ha x hx)).1 h
  cases hsh : e.shape <;> rw [hsh] at hrow h <;> simp only [evalShape, word_bind, opt_bind, ret_iff] at h
  case plain k => obtain ⟨rfl, rfl⟩ := h; exact .plain _ _ (by simpa using hrow)
  case u8 k =>
    obtain ⟨x, xs, n, rfl, h2, rfl, rfl⟩ := h
    exact .byteOp _ _ _ _ (by simpa using hrow) (hu h2)
  case u8u8 k =>
    obtain ⟨x, xs, n, rfl, h2, y, ys, m, rfl, h3, rfl, rfl⟩ := h
    exact .byteByteOp _ _ _ _ _ _ (by simpa using hrow) (hu h2) (hu h3)
  case i8 k =>
    obtain ⟨x, xs, n, rfl, h2, rfl, rfl⟩ := h
    exact .smallOp _ _ _ _ (by simpa using hrow) ((C11_int8 _ _).1 h2)
  case field r k =>
    obtain ⟨x, xs, n, rfl, h2, rfl, rfl⟩ := h
    cases r with
    | group g => exact .fieldOp _ _ _ _ _ (by simpa using hrow) ((field_iff g ver x n).1 h2)
    | txn c =>
      cases c with
      | txn => exact .txn _ _ _ _ (by simpa using hrow) ((txnField_iff ver x n).1 h2)
      | itxn =>
        obtain ⟨h3, rfl⟩ : e.name = b!"itxn_field" ∧ k = .itxnField := by simpa using hrow
        rw [h3]
        exact .inner _ _ ((innerField_iff ver x n).1 h2)
      | txna =>
        have hm : (e.name, k) ∈ [(b!"txnas", .txnas), (b!"gtxnsas", .gtxnsas), (b!"itxnas", .itxnas)] := by simpa using hrow
        refine .array _ _ _ _ hm (hf x (by simp) ?_ h2)
        simp only [List.mem_cons, List.not_mem_nil, or_false, Prod.mk.injEq] at hm
        rcases hm with h | h | h <;> simp [arrayOps, h.1]
  case fieldIdx k =>
    obtain ⟨x, xs, n, rfl, h2, y, ys, m, rfl, h3, rfl, rfl⟩ := h
    have hm : (e.name, k) ∈ [(b!"txna", .txna), (b!"gtxnsa", .gtxnsa), (b!"itxna", .itxna)] := by simpa using hrow
    refine .arrayAt _ _ _ _ _ _ hm (hf x (by simp) ?_ h2) (hu h3)
    simp only [List.mem_cons, List.not_mem_nil, or_false, Prod.mk.injEq] at hm
    rcases hm with h | h | h <;> simp [arrayOps, h.1]
  case fieldOptIdx k k' =>
    obtain ⟨x, xs, n, rfl, h2, h⟩ := h
    have hm : (e.name, k, k') ∈ [(b!"txn", .txn, .txna), (b!"gtxns", .gtxns, .gtxnsa)] := by simpa using hrow
    simp only [List.mem_cons, List.not_mem_nil, or_false, Prod.mk.injEq] at hm
    rcases h with ⟨rfl, rfl, -⟩ | ⟨y, ys, m, rfl, h3, rfl, rfl⟩
    · refine .txn _ _ _ _ ?_ ((txnField_iff ver x n).1 h2)
      rcases hm with ⟨h, rfl, -⟩ | ⟨h, rfl, -⟩ <;> simp [h]
    · refine .txnAt _ _ _ _ _ _ ?_ ((indexedField_iff ver x n ?_).1 h2) (hu h3)
      · rcases hm with ⟨h, -, rfl⟩ | ⟨h, -, rfl⟩ <;> simp [h]
      · refine hr.indexed (.inl ⟨?_, rfl⟩) x (by simp)
        rcases hm with ⟨h, -, -⟩ | ⟨h, -, -⟩ <;> simp [h]
  case groupField c k =>
    obtain ⟨x, xs, n, rfl, h2, y, ys, m, rfl, h3, rfl, rfl⟩ := h
    cases c with
    | txn =>
      have hm : (e.name, k) ∈ [(b!"gitxn", .gitxn)] := by simpa using hrow
      refine .group _ _ _ _ _ _ ?_ (hu h2) ((txnField_iff ver y m).1 h3)
      simp only [List.mem_cons, List.not_mem_nil, or_false, Prod.mk.injEq] at hm
      simp [hm.1, hm.2]
    | itxn => cases hrow
    | txna =>
      have hm : (e.name, k) ∈ [(b!"gtxnas", .gtxnas), (b!"gitxnas", .gitxnas)] := by simpa using hrow
      refine .groupArray _ _ _ _ _ _ hm (hu h2) (hf y (by simp) ?_ h3)
      simp only [List.mem_cons, List.not_mem_nil, or_false, Prod.mk.injEq] at hm
      rcases hm with h | h <;> simp [arrayOps, h.1]
  case gtxn =>
    have hn : e.name = b!"gtxn" := by simpa using hrow
    obtain ⟨x, xs, n, rfl, h2, y, ys, m, rfl, h3, h⟩ := h
    rcases h with ⟨rfl, rfl, -⟩ | ⟨z, zs, i, rfl, h4, rfl, rfl⟩
    · exact .group _ _ _ _ _ _ (by simp [hn]) (hu h2) ((txnField_iff ver y m).1 h3)
    · have := hr.indexed (.inr ⟨hn, rfl⟩) y (by simp)
      rw [hn]
      exact .groupAt _ _ _ _ _ _ (hu h2) ((indexedField_iff ver y m this).1 h3) (hu h4)
  case gtxna =>
    have hn : e.name = b!"gtxna" := by simpa using hrow
    obtain ⟨x, xs, n, rfl, h2, y, ys, m, rfl, h3, z, zs, i, rfl, h4, rfl, rfl⟩ := h
    exact .groupArrayAt _ _ _ _ _ _ _ _ (by simp [hn]) (hu h2) (hf y (by simp) (by simp [hn, arrayOps]) h3) (hu h4)
  case gitxna => exact absurd (by simpa using hrow) hr.group
  case int =>
    obtain ⟨x, xs, n, rfl, h2, rfl, rfl⟩ := h
    have hn : e.name = b!"int" := by simpa using hrow
    rw [hn]
    exact .int _ _ ((readConstInt_iff _ _).1 h2)
  case pushint =>
    obtain ⟨x, xs, n, rfl, h2, rfl, rfl⟩ := h
    have hn : e.name = b!"pushint" := by simpa using hrow
    rw [hn]
    exact .pushint _ _ ((C11_int_literal _ _).1 h2)
  case byte =>
    obtain ⟨v, h2, rfl⟩ := any_bind.1 h
    have hn : e.name = b!"byte" := by simpa using hrow
    have h3 := (bytes_iff (fun x hx => (hw x hx).1) (hr.closed (by simp [hn, byteConstOps])) ver v).1 h2
    rw [hn]
    exact .byte _ _ h3
  case pushbytes =>
    obtain ⟨v, h2, rfl⟩ := any_bind.1 h
    have hn : e.name = b!"pushbytes" := by simpa using hrow
    have h3 := (bytes_iff (fun x hx => (hw x hx).1) (hr.closed (by simp [hn, byteConstOps])) ver v).1 h2
    rw [hn]
    exact .pushbytes _ _ h3
  case bytecblock =>
    obtain ⟨v, h2, rfl⟩ := any_bind.1 h
    have hn : e.name = b!"bytecblock" := by simpa using hrow
    have h3 := (bytesAll_iff (fun x hx => (hw x hx).1) (hr.closed (by simp [hn, byteConstOps])) ver v).1 h2
    rw [hn]
    exact .bytecblock _ _ h3
  case pushbytess =>
    obtain ⟨v, h2, rfl⟩ := any_bind.1 h
    have hn : e.name = b!"pushbytess" := by simpa using hrow
    have h3 := (bytesAll_iff (fun x hx => (hw x hx).1) (hr.closed (by simp [hn, byteConstOps])) ver v).1 h2
    rw [hn]
    exact .pushbytess _ _ h3
  case intcblock =>
    obtain ⟨v, h2, rfl⟩ := any_bind.1 h
    have hn : e.name = b!"intcblock" := by simpa using hrow
    rw [hn]
    exact .intcblock _ _ ((singles_iff C11_int_literal ver ws v).1 h2)
  case pushints =>
    obtain ⟨v, h2, rfl⟩ := any_bind.1 h
    have hn : e.name = b!"pushints" := by simpa using hrow
    rw [hn]
    exact .pushints _ _ ((singles_iff C11_int_literal ver ws v).1 h2)
  case addr =>
    obtain ⟨x, xs, n, rfl, h2, rfl, rfl⟩ := h
    have hn : e.name = b!"addr" := by simpa using hrow
    rw [hn]
    split at h2
    · injection h2 with h2; subst h2; exact .addr _ (by assumption)
    · cases h2
  case method =>
    obtain ⟨x, xs, n, rfl, h2, rfl, rfl⟩ := h
    have hn : e.name = b!"method" := by simpa using hrow
    rw [hn]
    obtain ⟨rfl, s, rfl⟩ := (quotedWord_iff (hw x (by simp)).2).1 h2
    exact .method s
  case branch k =>
    obtain ⟨x, xs, n, rfl, h2, rfl, rfl⟩ := h
    injection h2 with h2; subst h2
    exact .branch _ _ _ (by simpa using hrow)
  case switch =>
    obtain ⟨v, h2, rfl⟩ := any_bind.1 h
    have hn : e.name = b!"switch" := by simpa using hrow
    rw [hn]
    rw [(labels_all ver ws v).1 h2]
    exact .switch _
  case match_ =>
    obtain ⟨v, h2, rfl⟩ := any_bind.1 h
    have hn : e.name = b!"match" := by simpa using hrow
    rw [hn]
    rw [(labels_all ver ws v).1 h2]
    exact .match_ _
  case replace =>
    have hn : e.name = b!"replace" := by simpa using hrow
    rw [hn]
    rcases h with ⟨rfl, rfl, -⟩ | ⟨x, xs, n, rfl, h2, rfl, rfl⟩
    · exact .replace3
    · exact .byteOp _ _ _ _ (by decide) (hu h2)
  case extract =>
    have hn : e.name = b!"extract" := by simpa using hrow
    rw [hn]
    rcases h with ⟨rfl, rfl, -⟩ | ⟨x, xs, n, rfl, h2, y, ys, m, rfl, h3, rfl, rfl⟩
    · exact .extract3
    · exact .byteByteOp _ _ _ _ _ _ (by decide) (hu h2) (hu h3)

theorem plain_rows : ∀ p ∈ plainOps, (opsGet p.1).map (·.shape) = some (.plain p.2) := by decide +kernel
theorem byte_rows : ∀ p ∈ byteOps, (opsGet p.1).map (·.shape) = some (if p.1 = b!"replace" then .replace else .u8 p.2) := by
  decide +kernel
theorem byteByte_rows : ∀ p ∈ byteByteOps,
    (opsGet p.1).map (·.shape) = some (if p.1 = b!"extract" then .extract else .u8u8 p.2) := by decide +kernel
theorem byte_replace : ∀ p ∈ byteOps, p.1 = b!"replace" → p.2 = .replace2 := by decide +kernel
theorem byteByte_extract : ∀ p ∈ byteByteOps, p.1 = b!"extract" → p.2 = .extract := by decide +kernel
theorem field_rows : ∀ p ∈ fieldOps, ∃ g, (opsGet p.1).map (·.shape) = some (.field (.group g) p.2.2) ∧ documented g = p.2.1 := by
  have h : ∀ p ∈ fieldOps, (match (opsGet p.1).map (·.shape) with
    | some (.field (.group g) k) => decide (k = p.2.2 ∧ documented g = p.2.1)
    | _ => false) = true := by decide +kernel
  intro p hp
  have h1 := h p hp
  split at h1
  · rename_i g k h2
    obtain ⟨rfl, h3⟩ := of_decide_eq_true h1
    exact ⟨g, h2, h3⟩
  · cases h1

theorem arrayField_of {v : Nat} {s : Bytes} {i : Nat} (h : IsArrayField v s i) :
    (readFieldWith (.txn .txna) v s).map (·.field) = some i := by
  rcases h with ⟨d, h1, rfl, h2, -⟩ | ⟨h1, h2⟩
  · show (readTxnField .txna v d.name).map _ = _
    rw [C15_txna_partial v i d h1, if_pos h2]; rfl
  · show (readTxnField .txna v s).map _ = _
    rw [C16_txn_by_number .txna v s h1]
    exact (field_iff .txn v s i).2 (.inr ⟨fun d hd => by
      obtain ⟨x, hx, rfl⟩ := List.mem_map.1 hd
      exact h1 x hx, h2⟩)

theorem _root_.Teal.Spec.IsArrayField.weaken {v : Nat} {s : Bytes} {i : Nat} (h : IsArrayField v s i) : IsTxnField v s i := by
  rcases h with ⟨d, h1, h2, -, h3⟩ | h
  · exact .inl ⟨d, h1, h2, h3⟩
  · exact .inr h

theorem isBytes_ne {ws : List Bytes} {v : Bytes} (h : IsBytes ws v) : ws ≠ [] := by cases h <;> simp

theorem bytes_of {ws : List Bytes} {ver : Nat} {v : Bytes} (h : IsBytes ws v) : Reader.bytes ver ws = some (v, []) := by
  obtain ⟨w, ws', h1, h2⟩ := bytesAt_of h []
  rw [List.append_nil] at h1
  rw [h1]
  exact h2

theorem bytesAll_of {ws : List Bytes} {ver : Nat} {vs : List Bytes} (h : Several IsBytes ws vs) :
    Reader.all bytesAt ver ws = some (vs, []) := by
  have key : ∀ n, ws.length ≤ n → Reader.many bytesAt n ws = some vs := by
    induction h with
    | nil => intro n _; cases n <;> rfl
    | cons ws ws' v vs h h' ih =>
      intro n hn
      have hne := List.length_pos_iff.2 (isBytes_ne h)
      rw [List.length_append] at hn
      obtain ⟨w, rest, h1, h2⟩ := bytesAt_of h ws'
      rw [h1]
      cases n with
      | zero => omega
      | succ n =>
        rw [Reader.many, h2]
        dsimp only
        rw [ih n (by omega)]
        rfl
  unfold Reader.all
  rw [key _ (Nat.le_refl _)]
  rfl

theorem eval_of_instr {addrOk : Bytes → Bool} {ver : Nat} {w : Bytes} {e : OpEntry} {ws : List Bytes} {o : Op}
    (he : opsGet w = some e) (hg : w ≠ b!"gitxna") (h : Instr addrOk ver w ws o) : evalShape addrOk e.shape ver ws = some (o, []) := by
  have hsh : ∀ {w sh}, opsGet w = some e → (opsGet w).map (·.shape) = some sh → e.shape = sh := by
    intro w sh h1 h2; rw [h1] at h2; simpa using h2
  have hu : ∀ {x n}, IsByte x n → readUint8 x = some n := fun h => (C11_uint8 _ _).2 h
  cases h with
  | plain _ k h =>
    rw [hsh he (plain_rows _ h)]
    simp only [evalShape, ret_iff, and_self]
  | replace3 =>
    rw [hsh he (show _ = some Shape.replace by decide +kernel)]
    simp only [evalShape, opt_bind, ret_iff, and_self, true_or]
  | extract3 =>
    rw [hsh he (show _ = some Shape.extract by decide +kernel)]
    simp only [evalShape, opt_bind, ret_iff, and_self, true_or]
  | byteOp _ x k n h hx =>
    rw [hsh he (byte_rows _ h)]
    split
    · rename_i hn
      simp only [evalShape, opt_bind, ret_iff]
      have := byte_replace _ h hn
      simp only at this
      subst this
      exact .inr ⟨x, [], n, rfl, hu hx, rfl, rfl⟩
    · simp only [evalShape, word_bind, ret_iff]
      exact ⟨x, [], n, rfl, hu hx, rfl, rfl⟩
  | byteByteOp _ x y k m n h hx hy =>
    rw [hsh he (byteByte_rows _ h)]
    split
    · rename_i hn
      simp only [evalShape, opt_bind, word_bind, ret_iff]
      have := byteByte_extract _ h hn
      simp only at this
      subst this
      exact .inr ⟨x, [y], m, rfl, hu hx, y, [], n, rfl, hu hy, rfl, rfl⟩
    · simp only [evalShape, word_bind, ret_iff]
      exact ⟨x, [y], m, rfl, hu hx, y, [], n, rfl, hu hy, rfl, rfl⟩
  | smallOp _ x k i h hx =>
    rw [hsh he (show _ = some (Shape.i8 k) by
      simp only [List.mem_cons, List.not_mem_nil, or_false, Prod.mk.injEq] at h
      rcases h with ⟨rfl, rfl⟩ | ⟨rfl, rfl⟩ <;> decide +kernel)]
    simp only [evalShape, word_bind, ret_iff]
    exact ⟨x, [], i, rfl, (C11_int8 _ _).2 hx, rfl, rfl⟩
  | fieldOp _ x names k i h hx =>
    obtain ⟨g, h1, h2⟩ := field_rows _ h
    rw [hsh he h1]
    simp only at h2
    subst h2
    simp only [evalShape, word_bind, ret_iff]
    exact ⟨x, [], i, rfl, (field_iff g ver x i).2 hx, rfl, rfl⟩
  | txn _ x k f h hx =>
    simp only [List.mem_cons, List.not_mem_nil, or_false, Prod.mk.injEq] at h
    have h2 := (txnField_iff ver x f).2 hx
    rcases h with ⟨rfl, rfl⟩ | ⟨rfl, rfl⟩ | ⟨rfl, rfl⟩
    · rw [hsh he (show _ = some (Shape.fieldOptIdx .txn .txna) by decide +kernel)]
      simp only [evalShape, word_bind, opt_bind, ret_iff]
      exact ⟨x, [], f, rfl, h2, .inl ⟨rfl, rfl, trivial⟩⟩
    · rw [hsh he (show _ = some (Shape.fieldOptIdx .gtxns .gtxnsa) by decide +kernel)]
      simp only [evalShape, word_bind, opt_bind, ret_iff]
      exact ⟨x, [], f, rfl, h2, .inl ⟨rfl, rfl, trivial⟩⟩
    · rw [hsh he (show _ = some (Shape.field (.txn .txn) .itxn) by decide +kernel)]
      simp only [evalShape, word_bind, ret_iff]
      exact ⟨x, [], f, rfl, h2, rfl, rfl⟩
  | txnAt _ x y k f i h hx hy =>
    simp only [List.mem_cons, List.not_mem_nil, or_false, Prod.mk.injEq] at h
    have h2 := (txnField_iff ver x f).2 hx.weaken
    rcases h with ⟨rfl, rfl⟩ | ⟨rfl, rfl⟩
    · rw [hsh he (show _ = some (Shape.fieldOptIdx .txn .txna) by decide +kernel)]
      simp only [evalShape, word_bind, opt_bind, ret_iff]
      exact ⟨x, [y], f, rfl, h2, .inr ⟨y, [], i, rfl, hu hy, rfl, rfl⟩⟩
    · rw [hsh he (show _ = some (Shape.fieldOptIdx .gtxns .gtxnsa) by decide +kernel)]
      simp only [evalShape, word_bind, opt_bind, ret_iff]
      exact ⟨x, [y], f, rfl, h2, .inr ⟨y, [], i, rfl, hu hy, rfl, rfl⟩⟩
  | inner x f hx =>
    rw [hsh he (show _ = some (Shape.field (.txn .itxn) .itxnField) by decide +kernel)]
    simp only [evalShape, word_bind, ret_iff]
    exact ⟨x, [], f, rfl, (innerField_iff ver x f).2 hx, rfl, rfl⟩
  | array _ x k f h hx =>
    rw [hsh he (show _ = some (Shape.field (.txn .txna) k) by
      simp only [List.mem_cons, List.not_mem_nil, or_false, Prod.mk.injEq] at h
      rcases h with ⟨rfl, rfl⟩ | ⟨rfl, rfl⟩ | ⟨rfl, rfl⟩ <;> decide +kernel)]
    simp only [evalShape, word_bind, ret_iff]
    refine ⟨x, [], f, rfl, arrayField_of hx, rfl, rfl⟩
  | arrayAt _ x y k f i h hx hy =>
    rw [hsh he (show _ = some (Shape.fieldIdx k) by
      simp only [List.mem_cons, List.not_mem_nil, or_false, Prod.mk.injEq] at h
      rcases h with ⟨rfl, rfl⟩ | ⟨rfl, rfl⟩ | ⟨rfl, rfl⟩ <;> decide +kernel)]
    simp only [evalShape, word_bind, ret_iff]
    refine ⟨x, [y], f, rfl, arrayField_of hx, y, [], i, rfl, hu hy, rfl, rfl⟩
  | group _ x y k t f h hx hy =>
    simp only [List.mem_cons, List.not_mem_nil, or_false, Prod.mk.injEq] at h
    have h2 := (txnField_iff ver y f).2 hy
    rcases h with ⟨rfl, rfl⟩ | ⟨rfl, rfl⟩
    · rw [hsh he (show _ = some Shape.gtxn by decide +kernel)]
      simp only [evalShape, word_bind, opt_bind, ret_iff]
      exact ⟨x, [y], t, rfl, hu hx, y, [], f, rfl, h2, .inl ⟨rfl, rfl, trivial⟩⟩
    · rw [hsh he (show _ = some (Shape.groupField .txn .gitxn) by decide +kernel)]
      simp only [evalShape, word_bind, ret_iff]
      exact ⟨x, [y], t, rfl, hu hx, y, [], f, rfl, h2, rfl, rfl⟩
  | groupArray _ x y k t f h hx hy =>
    rw [hsh he (show _ = some (Shape.groupField .txna k) by
      simp only [List.mem_cons, List.not_mem_nil, or_false, Prod.mk.injEq] at h
      rcases h with ⟨rfl, rfl⟩ | ⟨rfl, rfl⟩ <;> decide +kernel)]
    simp only [evalShape, word_bind, ret_iff]
    refine ⟨x, [y], t, rfl, hu hx, y, [], f, rfl, arrayField_of hy, rfl, rfl⟩
  | groupAt x y z t f i hx hy hz =>
    rw [hsh he (show _ = some Shape.gtxn by decide +kernel)]
    simp only [evalShape, word_bind, opt_bind, ret_iff]
    exact ⟨x, [y, z], t, rfl, hu hx, y, [z], f, rfl,
      (txnField_iff ver y f).2 hy.weaken, .inr ⟨z, [], i, rfl, hu hz, rfl, rfl⟩⟩
  | groupArrayAt _ x y z k t f i h hx hy hz =>
    simp only [List.mem_cons, List.not_mem_nil, or_false, Prod.mk.injEq] at h
    rcases h with ⟨rfl, rfl⟩ | ⟨rfl, rfl⟩
    · rw [hsh he (show _ = some Shape.gtxna by decide +kernel)]
      simp only [evalShape, word_bind, ret_iff]
      exact ⟨x, [y, z], t, rfl, hu hx, y, [z], f, rfl,
        arrayField_of hy, z, [], i, rfl, hu hz, rfl, rfl⟩
    · exact absurd rfl hg
  | int x n hx =>
    rw [hsh he (show _ = some Shape.int by decide +kernel)]
    simp only [evalShape, word_bind, ret_iff]
    exact ⟨x, [], n, rfl, (readConstInt_iff _ _).2 hx, rfl, rfl⟩
  | pushint x n hx =>
    rw [hsh he (show _ = some Shape.pushint by decide +kernel)]
    simp only [evalShape, word_bind, ret_iff]
    exact ⟨x, [], n, rfl, (C11_int_literal _ _).2 hx, rfl, rfl⟩
  | intcblock _ vs h =>
    rw [hsh he (show _ = some Shape.intcblock by decide +kernel)]
    exact any_bind.2 ⟨vs, (singles_iff C11_int_literal ver ws vs).2 h, rfl⟩
  | pushints _ vs h =>
    rw [hsh he (show _ = some Shape.pushints by decide +kernel)]
    exact any_bind.2 ⟨vs, (singles_iff C11_int_literal ver ws vs).2 h, rfl⟩
  | byte _ v h =>
    rw [hsh he (show _ = some Shape.byte by decide +kernel)]
    exact any_bind.2 ⟨v, bytes_of h, rfl⟩
  | pushbytes _ v h =>
    rw [hsh he (show _ = some Shape.pushbytes by decide +kernel)]
    exact any_bind.2 ⟨v, bytes_of h, rfl⟩
  | bytecblock _ vs h =>
    rw [hsh he (show _ = some Shape.bytecblock by decide +kernel)]
    exact any_bind.2 ⟨vs, bytesAll_of h, rfl⟩
  | pushbytess _ vs h =>
    rw [hsh he (show _ = some Shape.pushbytess by decide +kernel)]
    exact any_bind.2 ⟨vs, bytesAll_of h, rfl⟩
  | addr x h =>
    rw [hsh he (show _ = some Shape.addr by decide +kernel)]
    simp only [evalShape, word_bind, ret_iff]
    exact ⟨x, [], x, rfl, by rw [if_pos h], rfl, rfl⟩
  | method s =>
    rw [hsh he (show _ = some Shape.method by decide +kernel)]
    simp only [evalShape, word_bind, ret_iff]
    exact ⟨_, [], _, rfl, (quotedWord_iff (by simp)).2 ⟨rfl, s, rfl⟩, rfl, rfl⟩
  | branch _ l k h =>
    rw [hsh he (show _ = some (Shape.branch k) by
      simp only [List.mem_cons, List.not_mem_nil, or_false, Prod.mk.injEq] at h
      rcases h with ⟨rfl, rfl⟩ | ⟨rfl, rfl⟩ | ⟨rfl, rfl⟩ | ⟨rfl, rfl⟩ <;> decide +kernel)]
    simp only [evalShape, word_bind, ret_iff]
    exact ⟨l, [], l, rfl, rfl, rfl, rfl⟩
  | switch _ =>
    rw [hsh he (show _ = some Shape.switch by decide +kernel)]
    exact any_bind.2 ⟨ws, (labels_all ver ws ws).2 rfl, rfl⟩
  | match_ _ =>
    rw [hsh he (show _ = some Shape.match_ by decide +kernel)]
    exact any_bind.2 ⟨ws, (labels_all ver ws ws).2 rfl, rfl⟩

/-- The opcodes of the reference are in the table. -/
theorem instr_known {addrOk : Bytes → Bool} {ver : Nat} {w : Bytes} {ws : List Bytes} {o : Op} (h : Instr addrOk ver w ws o) :
    ∃ e, opsGet w = some e := by
  have key : ∀ {w sh}, (opsGet w).map (·.shape) = some sh → ∃ e, opsGet w = some e := by
    intro w sh h
    obtain ⟨e, h1, -⟩ := Option.map_eq_some_iff.1 h
    exact ⟨e, h1⟩
  have key' : ∀ {w}, (opsGet w).isSome = true → ∃ e, opsGet w = some e := fun h => Option.isSome_iff_exists.1 h
  cases h with
  | plain _ k h => exact key (plain_rows _ h)
  | byteOp _ x k n h hx => exact key (byte_rows _ h)
  | byteByteOp _ x y k m n h hx hy => exact key (byteByte_rows _ h)
  | fieldOp _ x names k i h hx => obtain ⟨g, h1, -⟩ := field_rows _ h; exact key h1
  | smallOp _ x k i h hx =>
    simp only [List.mem_cons, List.not_mem_nil, or_false, Prod.mk.injEq] at h
    rcases h with ⟨rfl, rfl⟩ | ⟨rfl, rfl⟩ <;> exact key' (by decide +kernel)
  | txn _ x k f h hx =>
    simp only [List.mem_cons, List.not_mem_nil, or_false, Prod.mk.injEq] at h
    rcases h with ⟨rfl, rfl⟩ | ⟨rfl, rfl⟩ | ⟨rfl, rfl⟩ <;> exact key' (by decide +kernel)
  | txnAt _ x y k f i h hx hy =>
    simp only [List.mem_cons, List.not_mem_nil, or_false, Prod.mk.injEq] at h
    rcases h with ⟨rfl, rfl⟩ | ⟨rfl, rfl⟩ <;> exact key' (by decide +kernel)
  | array _ x k f h hx =>
    simp only [List.mem_cons, List.not_mem_nil, or_false, Prod.mk.injEq] at h
    rcases h with ⟨rfl, rfl⟩ | ⟨rfl, rfl⟩ | ⟨rfl, rfl⟩ <;> exact key' (by decide +kernel)
  | arrayAt _ x y k f i h hx hy =>
    simp only [List.mem_cons, List.not_mem_nil, or_false, Prod.mk.injEq] at h
    rcases h with ⟨rfl, rfl⟩ | ⟨rfl, rfl⟩ | ⟨rfl, rfl⟩ <;> exact key' (by decide +kernel)
  | group _ x y k t f h hx hy =>
    simp only [List.mem_cons, List.not_mem_nil, or_false, Prod.mk.injEq] at h
    rcases h with ⟨rfl, rfl⟩ | ⟨rfl, rfl⟩ <;> exact key' (by decide +kernel)
  | groupArray _ x y k t f h hx hy =>
    simp only [List.mem_cons, List.not_mem_nil, or_false, Prod.mk.injEq] at h
    rcases h with ⟨rfl, rfl⟩ | ⟨rfl, rfl⟩ <;> exact key' (by decide +kernel)
  | groupArrayAt _ x y z k t f i h hx hy hz =>
    simp only [List.mem_cons, List.not_mem_nil, or_false, Prod.mk.injEq] at h
    rcases h with ⟨rfl, rfl⟩ | ⟨rfl, rfl⟩ <;> exact key' (by decide +kernel)
  | branch _ l k h =>
    simp only [List.mem_cons, List.not_mem_nil, or_false, Prod.mk.injEq] at h
    rcases h with ⟨rfl, rfl⟩ | ⟨rfl, rfl⟩ | ⟨rfl, rfl⟩ | ⟨rfl, rfl⟩ <;> exact key' (by decide +kernel)
  | _ => exact key' (by decide +kernel)



end Teal
