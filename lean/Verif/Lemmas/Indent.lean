import Verif.Lemmas.Json2

/-!
# Lemmas: indented JSON texts
-/

namespace Teal.JsonSpec

open Teal Teal.Json

theorem ws_append {a b : Bytes} (ha : Ws a) (hb : Ws b) : Ws (a ++ b) := by
  intro c hc
  rcases List.mem_append.1 hc with h | h
  · exact ha c h
  · exact hb c h

theorem ws_newline {tab : Bytes} (ht : Ws tab) (d : Nat) : Ws (newline tab d) := by
  intro c hc
  rcases List.mem_cons.1 hc with rfl | hc
  · decide
  · obtain ⟨l, hl, hc'⟩ := List.mem_flatten.1 hc
    rw [(List.mem_replicate.1 hl).2] at hc'
    exact ht c hc'

theorem spelled_ws {l : Prop} {n : Nat} {s : Bytes} {p : Phrase} (h : Spelled l n s p) {a b : Bytes} (ha : Ws a) (hb : Ws b) :
    (∀ v, p ≠ .value v) → Spelled l n (a ++ s ++ b) p := by
  induction h generalizing a with
  | element h1 h2 h3 =>
    intro _
    have := Spelled.element (ws_append ha h1) h2 (ws_append h3 hb)
    simpa [List.append_assoc] using this
  | elements h1 h2 h3 h4 _ ih =>
    intro _
    have := Spelled.elements (ws_append ha h1) h2 h3 (ih ws_nil (by simp))
    simpa [List.append_assoc] using this
  | member h1 h2 h3 h4 h5 h6 =>
    intro _
    have := Spelled.member (ws_append ha h1) h2 h3 h4 h5 (ws_append h6 hb)
    simpa [List.append_assoc] using this
  | members h1 h2 h3 h4 h5 h6 h7 _ ih =>
    intro _
    have := Spelled.members (ws_append ha h1) h2 h3 h4 h5 h6 (ih ws_nil (by simp))
    simpa [List.append_assoc] using this
  | _ => intro h; exact (h _ rfl).elim

/-! ## Strings -/

theorem indent_bytes (tab : Bytes) {u : Bytes} (h : ∀ c ∈ u, c ≠ 34 ∧ c ≠ 92) (d : Nat) (rest : Bytes) :
    indent tab .str false d (u ++ rest) = u ++ indent tab .str false d rest := by
  induction u with
  | nil => rfl
  | cons c u ih =>
    have hc := h c (by simp)
    rw [List.cons_append, indent, if_neg hc.1, if_neg hc.2, ih fun c hc => h c (by simp [hc])]
    rfl

theorem utf8_bytes {n : Nat} (hn : Scalar n) (h1 : n ≠ 34) (h2 : n ≠ 92) : ∀ c ∈ utf8 n, c ≠ 34 ∧ c ≠ 92 := by
  have hb : ∀ k : Nat, 128 ≤ k → k < 256 → k.toUInt8 ≠ 34 ∧ k.toUInt8 ≠ 92 := by
    intro k hk hk'
    have := toNat_toUInt8 k
    constructor <;> (intro e; rw [e] at this; simp at this; omega)
  have hl := hn.lt
  intro c hc
  unfold utf8 at hc
  split at hc
  · rw [List.mem_singleton.1 hc]
    have := toNat_toUInt8 n
    constructor <;> (intro e; rw [e] at this; simp at this; omega)
  · split at hc
    · simp only [List.mem_cons, List.not_mem_nil, or_false] at hc
      rcases hc with rfl | rfl <;> exact hb _ (by omega) (by omega)
    · split at hc
      · simp only [List.mem_cons, List.not_mem_nil, or_false] at hc
        rcases hc with rfl | rfl | rfl <;> exact hb _ (by omega) (by omega)
      · simp only [List.mem_cons, List.not_mem_nil, or_false] at hc
        rcases hc with rfl | rfl | rfl | rfl <;> exact hb _ (by omega) (by omega)

theorem hex_bytes {h : Bytes} {n : Nat} (hh : Hex4 h n) : ∀ c ∈ h, c ≠ 34 ∧ c ≠ 92 := by
  have key : ∀ {c : UInt8} {n : Nat}, HexDigit c n → c ≠ 34 ∧ c ≠ 92 := by
    intro c n h
    have e1 : (34 : UInt8).toNat = 34 := rfl
    have e2 : (92 : UInt8).toNat = 92 := rfl
    cases h <;> (constructor <;> (rintro rfl; omega))
  cases hh
  intro c hc
  simp only [List.mem_cons, List.not_mem_nil, or_false] at hc
  rcases hc with rfl | rfl | rfl | rfl <;> exact key (by assumption)

theorem indent_chars (tab : Bytes) {s v : Bytes} (h : Chars False s v) (d : Nat) (rest : Bytes) :
    indent tab .str false d (s ++ 34 :: rest) = s ++ 34 :: indent tab .out false d rest := by
  have esc : ∀ (c : UInt8) (t : Bytes), indent tab .str false d (92 :: c :: t) = 92 :: c :: indent tab .str false d t := fun c t => rfl
  induction h with
  | nil => rfl
  | plain hn h1 h2 h3 _ ih => rw [List.append_assoc, indent_bytes tab (utf8_bytes hn h2 h3), ih, List.append_assoc]
  | short _ _ ih => rw [List.cons_append, List.cons_append, esc, ih]; rfl
  | code hh _ _ ih =>
    simp only [List.cons_append, List.append_assoc]
    rw [esc, indent_bytes tab (hex_bytes hh), ih]
  | pair hh hg _ _ _ _ _ ih =>
    simp only [List.cons_append, List.append_assoc]
    rw [esc, indent_bytes tab (hex_bytes hh), esc, indent_bytes tab (hex_bytes hg), ih]
  | half h => exact h.elim
  | stray h => exact h.elim

/-! ## Values -/

/-- Bytes of numbers and words. -/
abbrev Dull (c : UInt8) : Prop := isSpace c = false ∧ c ≠ 125 ∧ c ≠ 93 ∧ c ≠ 123 ∧ c ≠ 91 ∧ c ≠ 44 ∧ c ≠ 58 ∧ c ≠ 34

theorem indent_dull (tab : Bytes) {u : Bytes} (h : ∀ c ∈ u, Dull c) (d : Nat) (rest : Bytes) :
    indent tab .out false d (u ++ rest) = u ++ indent tab .out false d rest := by
  induction u with
  | nil => rfl
  | cons c u ih =>
    obtain ⟨h1, h2, h3, h4, h5, h6, h7, h8⟩ := h c (by simp)
    have := ih fun c hc => h c (by simp [hc])
    rw [List.cons_append, indent]
    simp [h1, h2, h3, h4, h5, h6, h7, h8, this]

theorem indent_ws (tab : Bytes) {a : Bytes} (h : Ws a) (need : Bool) (d : Nat) (rest : Bytes) :
    indent tab .out need d (a ++ rest) = indent tab .out need d rest := by
  induction a with
  | nil => rfl
  | cons c a ih =>
    have hc : isSpace c = true := (isSpace_iff c).2 (h c (by simp))
    rw [List.cons_append, indent, if_pos hc, ih fun c hc => h c (by simp [hc])]

/-- What precedes the first value in brackets. -/
def lead (tab : Bytes) (need : Bool) (d : Nat) : Bytes := if need then newline tab (d + 1) else []

/-- The depth there. -/
def deeper (need : Bool) (d : Nat) : Nat := if need then d + 1 else d

theorem indent_dull' (tab : Bytes) {c : UInt8} {u : Bytes} (h : ∀ x ∈ c :: u, Dull x) (need : Bool) (d : Nat) (rest : Bytes) :
    indent tab .out need d (c :: u ++ rest) = lead tab need d ++ (c :: u) ++ indent tab .out false (deeper need d) rest := by
  obtain ⟨h1, h2, h3, h4, h5, h6, h7, h8⟩ := h c (by simp)
  have := indent_dull tab (u := u) (fun c hc => h c (by simp [hc])) (deeper need d) rest
  rw [List.cons_append, indent]
  unfold lead
  unfold deeper at *
  cases need <;> simp_all

theorem indent_open (tab : Bytes) {c : UInt8} (hc : c = 123 ∨ c = 91) (need : Bool) (d : Nat) (rest : Bytes) :
    indent tab .out need d (c :: rest) = lead tab need d ++ c :: indent tab .out true (deeper need d) rest := by
  rw [indent]
  unfold lead deeper
  rcases hc with rfl | rfl <;> cases need <;> rfl

theorem indent_quote (tab : Bytes) (need : Bool) (d : Nat) (rest : Bytes) :
    indent tab .out need d (34 :: rest) = lead tab need d ++ 34 :: indent tab .str false (deeper need d) rest := by
  rw [indent]
  unfold lead deeper
  cases need <;> rfl

theorem indent_close (tab : Bytes) {c : UInt8} (hc : c = 125 ∨ c = 93) (d : Nat) (rest : Bytes) :
    indent tab .out false (d + 1) (c :: rest) = newline tab d ++ c :: indent tab .out false d rest := by
  rw [indent]
  rcases hc with rfl | rfl <;> rfl

theorem indent_shut (tab : Bytes) {c : UInt8} (hc : c = 125 ∨ c = 93) (d : Nat) (rest : Bytes) :
    indent tab .out true d (c :: rest) = c :: indent tab .out false d rest := by
  rw [indent]
  rcases hc with rfl | rfl <;> rfl

theorem indent_comma (tab : Bytes) (d : Nat) (rest : Bytes) :
    indent tab .out false d (44 :: rest) = 44 :: newline tab d ++ indent tab .out false d rest := rfl

theorem indent_colon (tab : Bytes) (d : Nat) (rest : Bytes) :
    indent tab .out false d (58 :: rest) = 58 :: 32 :: indent tab .out false d rest := rfl

theorem number_dull {s : Bytes} (h : JsonNumber s) : ∀ c ∈ s, Dull c := by
  have hd : ∀ c : UInt8, 48 ≤ c.toNat ∧ c.toNat ≤ 57 → Dull c := forall_byte (by decide +kernel)
  obtain ⟨sign, whole, frac, exp, rfl, h1, h2, h3, h4⟩ := h
  intro c hc
  simp only [List.mem_append] at hc
  rcases hc with ((hc | hc) | hc) | hc
  · rcases h1 with rfl | rfl
    · cases hc
    · rw [List.mem_singleton.1 hc]; decide
  · rcases h2 with rfl | ⟨⟨-, h⟩, -⟩
    · rw [List.mem_singleton.1 hc]; decide
    · exact hd c (h c hc)
  · rcases h3 with rfl | ⟨ds, ⟨-, h⟩, rfl⟩
    · cases hc
    · rcases List.mem_cons.1 hc with rfl | hc
      · decide
      · exact hd c (h c hc)
  · rcases h4 with rfl | ⟨e, g, ds, ⟨-, h⟩, he, hg, rfl⟩
    · cases hc
    · simp only [List.mem_append] at hc
      rcases hc with (hc | hc) | hc
      · rcases he with rfl | rfl <;> (rw [List.mem_singleton.1 hc]; decide)
      · rcases hg with rfl | rfl | rfl
        · cases hc
        · rw [List.mem_singleton.1 hc]; decide
        · rw [List.mem_singleton.1 hc]; decide
      · exact hd c (h c hc)

theorem indent_spelled {tab : Bytes} (ht : Ws tab) {n : Nat} {s : Bytes} {p : Phrase} (h : Spelled False n s p) : ∀ (need : Bool) (d : Nat) (rest : Bytes),
    ∃ out, indent tab .out need d (s ++ rest) = lead tab need d ++ out ++ indent tab .out false (deeper need d) rest ∧ Spelled False n out p := by
  induction h with
  | null => intro need d rest; exact ⟨_, indent_dull' tab (c := 110) (u := b!"ull") (by decide) need d rest, .null⟩
  | true => intro need d rest; exact ⟨_, indent_dull' tab (c := 116) (u := b!"rue") (by decide) need d rest, .true⟩
  | false => intro need d rest; exact ⟨_, indent_dull' tab (c := 102) (u := b!"alse") (by decide) need d rest, .false⟩
  | @num n s h =>
    intro need d rest
    obtain ⟨c, t, rfl, -⟩ := h.cons
    exact ⟨_, indent_dull' tab (number_dull h) need d rest, .num h⟩
  | @str n s v h =>
    intro need d rest
    refine ⟨_, ?_, .str h⟩
    show indent tab .out need d (34 :: s ++ [34] ++ rest) = _
    rw [List.append_assoc, List.cons_append, indent_quote, List.cons_append, List.nil_append, indent_chars tab h]
    simp
  | @emptyArr n w h =>
    intro need d rest
    refine ⟨_, ?_, .emptyArr (w := []) ws_nil⟩
    show indent tab .out need d (91 :: w ++ [93] ++ rest) = _
    rw [List.append_assoc, List.cons_append, indent_open tab (.inr rfl), indent_ws tab h, List.cons_append, indent_shut tab (.inr rfl)]
    simp
  | @emptyObj n w h =>
    intro need d rest
    refine ⟨_, ?_, .emptyObj (w := []) ws_nil⟩
    show indent tab .out need d (123 :: w ++ [125] ++ rest) = _
    rw [List.append_assoc, List.cons_append, indent_open tab (.inl rfl), indent_ws tab h, List.cons_append, indent_shut tab (.inl rfl)]
    simp
  | @arr n s vs _ ih =>
    intro need d rest
    obtain ⟨out, h1, h2⟩ := ih true (deeper need d) ([93] ++ rest)
    refine ⟨_, ?_, .arr (spelled_ws h2 (ws_newline ht (deeper need d + 1)) (ws_newline ht (deeper need d)) (by simp))⟩
    show indent tab .out need d (91 :: s ++ [93] ++ rest) = _
    rw [List.append_assoc, List.cons_append, indent_open tab (.inr rfl), h1]
    show _ ++ 91 :: (newline tab (deeper need d + 1) ++ out ++ indent tab .out false (deeper need d + 1) (93 :: rest)) = _
    rw [indent_close tab (.inr rfl)]
    simp
  | @obj n s vs _ ih =>
    intro need d rest
    obtain ⟨out, h1, h2⟩ := ih true (deeper need d) ([125] ++ rest)
    refine ⟨_, ?_, .obj (spelled_ws h2 (ws_newline ht (deeper need d + 1)) (ws_newline ht (deeper need d)) (by simp))⟩
    show indent tab .out need d (123 :: s ++ [125] ++ rest) = _
    rw [List.append_assoc, List.cons_append, indent_open tab (.inl rfl), h1]
    show _ ++ 123 :: (newline tab (deeper need d + 1) ++ out ++ indent tab .out false (deeper need d + 1) (125 :: rest)) = _
    rw [indent_close tab (.inl rfl)]
    simp
  | @element n a s b v ha _ hb ih =>
    intro need d rest
    obtain ⟨out, h1, h2⟩ := ih need d (b ++ rest)
    refine ⟨_, ?_, .element (a := []) (b := []) ws_nil h2 ws_nil⟩
    rw [List.append_assoc, List.append_assoc, indent_ws tab ha, h1, indent_ws tab hb]
    simp
  | @elements n a s b t v vs ha _ hb _ ih ih' =>
    intro need d rest
    obtain ⟨out, h1, h2⟩ := ih need d (b ++ 44 :: (t ++ rest))
    obtain ⟨out', h1', h2'⟩ := ih' false (deeper need d) rest
    refine ⟨_, ?_, .elements (a := []) (b := []) ws_nil h2 ws_nil (spelled_ws h2' (ws_newline ht (deeper need d)) ws_nil (by simp))⟩
    have e : a ++ s ++ b ++ b!"," ++ t ++ rest = a ++ (s ++ (b ++ 44 :: (t ++ rest))) := by simp
    rw [e, indent_ws tab ha, h1, indent_ws tab hb, indent_comma, h1']
    simp [lead, deeper]
  | @member n a k b c s e key v ha hk hb hc _ he ih =>
    intro need d rest
    obtain ⟨out, h1, h2⟩ := ih false (deeper need d) (e ++ rest)
    refine ⟨_, ?_, .member (a := []) (b := []) (c := b!" ") (d := []) ws_nil hk ws_nil (by decide) h2 ws_nil⟩
    have e : a ++ b!"\"" ++ k ++ b!"\"" ++ b ++ b!":" ++ c ++ s ++ e ++ rest = a ++ 34 :: (k ++ 34 :: (b ++ 58 :: (c ++ (s ++ (e ++ rest))))) := by simp
    rw [e, indent_ws tab ha, indent_quote, indent_chars tab hk, indent_ws tab hb, indent_colon, indent_ws tab hc, h1, indent_ws tab he]
    simp [lead, deeper]
  | @members n a k b c s e t key v ms ha hk hb hc _ he _ ih ih' =>
    intro need d rest
    obtain ⟨out, h1, h2⟩ := ih false (deeper need d) (e ++ 44 :: (t ++ rest))
    obtain ⟨out', h1', h2'⟩ := ih' false (deeper need d) rest
    refine ⟨_, ?_, .members (a := []) (b := []) (c := b!" ") (d := []) ws_nil hk ws_nil (by decide) h2 ws_nil
      (spelled_ws h2' (ws_newline ht (deeper need d)) ws_nil (by simp))⟩
    have e : a ++ b!"\"" ++ k ++ b!"\"" ++ b ++ b!":" ++ c ++ s ++ e ++ b!"," ++ t ++ rest =
        a ++ 34 :: (k ++ 34 :: (b ++ 58 :: (c ++ (s ++ (e ++ 44 :: (t ++ rest)))))) := by simp
    rw [e, indent_ws tab ha, indent_quote, indent_chars tab hk, indent_ws tab hb, indent_colon, indent_ws tab hc, h1, indent_ws tab he, indent_comma]
    simp only [deeper] at h1' ⊢
    rw [show (if (false : Bool) = true then (if need = true then d + 1 else d) + 1 else (if need = true then d + 1 else d)) = (if need = true then d + 1 else d) from rfl] at *
    rw [h1']
    simp [lead]

/-- Indenting a text does not change what it stands for. -/
theorem indent_spells {tab : Bytes} (ht : Ws tab) {n : Nat} {s : Bytes} {j : Json} (h : Spells n s j) : Spells n (indent tab .out false 0 s) j := by
  obtain ⟨a, t, b, ha, h, hb, rfl⟩ := h
  obtain ⟨out, h1, h2⟩ := indent_spelled ht h false 0 b
  refine ⟨[], out, [], ws_nil, h2, ws_nil, ?_⟩
  rw [List.append_assoc, indent_ws tab ha, h1]
  have := indent_ws tab hb false 0 []
  rw [List.append_nil] at this
  show [] ++ out ++ indent tab .out false 0 b = _
  rw [this]
  rfl

end Teal.JsonSpec
