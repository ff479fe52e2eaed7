import Verif.Lemmas.Quote
import Verif.Props.CleanTexts

/-!
# The word quoted in a message is the word (C131)
-/

namespace Teal.Props

open Teal Spec Teal.Lsp Teal.Lsp.Spec Teal.WireSpec Teal.JsonSpec Teal.Wire

/-- **C131** A word is quoted as a literal of Go that stands for it, whatever its bytes are and whatever can be printed. -/
theorem C131_literal (print : Nat → Bool) (x : Bytes) : ∃ body, quote print x = 34 :: (body ++ [34]) ∧ GoLiteral body x :=
  quote_literal print x

/-- Words with a quotation mark, a control character, a letter that is not ASCII and a byte that is not UTF-8. -/
example : quote (fun _ => true) (b!"1\"\n" ++ [195, 169, 0, 255]) = b!"\"1\\\"\\n" ++ [195, 169] ++ b!"\\x00\\xff\"" ∧
    quote (fun _ => false) [195, 169, 240, 159, 152, 128] = b!"\"\\u00e9\\U0001f600\"" := by decide +kernel

/-- **C131** A literal ends at the first quotation mark that is not escaped, and stands for one word. -/
theorem C131_unique {s t v w r r' : Bytes} (h : GoLiteral s v) (h' : GoLiteral t w) (e : s ++ 34 :: r = t ++ 34 :: r') : v = w ∧ r = r' :=
  goLiteral_prefix h h' e

/-- **C131** A message about a number names one word: whoever reads it knows which, and which of the two reasons it gives. -/
theorem C131_names {print : Nat → Bool} {fn x y m : Bytes} {P P' : Prop} (h : NumberSays fn (quote print) x P m)
    (h' : NumberSays fn (quote print) y P' m) : x = y ∧ (P ↔ P') := by
  have key : ∀ {z P}, NumberSays fn (quote print) z P m → ∃ r, m = b!"strconv." ++ fn ++ b!": parsing " ++ (quote print z ++ r) ∧
      (P ∧ r = b!": value out of range" ∨ ¬ P ∧ r = b!": invalid syntax") := by
    rintro z P (⟨hp, rfl⟩ | ⟨hp, rfl⟩)
    · exact ⟨_, List.append_assoc _ _ _, .inl ⟨hp, rfl⟩⟩
    · exact ⟨_, List.append_assoc _ _ _, .inr ⟨hp, rfl⟩⟩
  obtain ⟨r, h1, hr⟩ := key h
  obtain ⟨r', h2, hr'⟩ := key h'
  rw [h1] at h2
  have h3 := List.append_cancel_left h2
  obtain ⟨s, e, hs⟩ := quote_literal print x
  obtain ⟨t, e', ht⟩ := quote_literal print y
  rw [e, e'] at h3
  simp only [List.cons_append, List.append_assoc, List.nil_append, List.cons.injEq, true_and] at h3
  obtain ⟨h4, rfl⟩ := goLiteral_prefix hs ht h3
  refine ⟨h4, ?_⟩
  have hne : b!": value out of range" ≠ b!": invalid syntax" := by decide
  rcases hr with ⟨a, ha⟩ | ⟨a, ha⟩ <;> rcases hr' with ⟨b, hb⟩ | ⟨b, hb⟩
  · exact ⟨fun _ => b, fun _ => a⟩
  · exact absurd (ha.symm.trans hb) hne
  · exact absurd (hb.symm.trans ha) hne
  · exact ⟨fun h => absurd h a, fun h => absurd h b⟩

/-- A message to which this applies. -/
example : NumberSays b!"ParseUint" (quote fun _ => false) b!"1\"" (BeginsHuge b!"1\"") (b!"strconv.ParseUint: parsing \"1\\\"\": invalid syntax") :=
  (C122_texts (quote fun _ => false) b32Text b64Text id).uint b!"1\"" (fun n h => by
    have := (parseUint0_iff 64 (by decide) b!"1\"" n).2 h
    rw [show parseUint0 64 b!"1\"" = none by decide +kernel] at this
    cases this)

/-- **C131** A quoted word is in one line, without control characters, and is UTF-8 even if the word is not. -/
theorem C131_line (print : Nat → Bool) (x : Bytes) : (∀ c ∈ quote print x, 32 ≤ c ∧ c ≠ 127) ∧ Utf8 (quote print x) := by
  constructor
  · intro c hc
    obtain ⟨body, e, h⟩ := quote_literal print x
    rw [e] at hc
    simp only [List.mem_cons, List.mem_append, List.not_mem_nil, or_false] at hc
    rcases hc with rfl | hc | rfl
    · decide
    · exact goLiteral_print h c hc
    · decide
  · exact utf8_append (a := [34]) (utf8_lit (by decide)) (utf8_append (quoteLoop_utf8 print _ x) (utf8_lit (by decide)))

/-- **C131** A word of printable ASCII characters without quotation marks and backslashes is shown as it is. -/
theorem C131_plain (print : Nat → Bool) {x : Bytes} (h : ∀ c ∈ x, 32 ≤ c ∧ c < 127 ∧ c ≠ 34 ∧ c ≠ 92) : quote print x = b!"\"" ++ x ++ b!"\"" := by
  unfold quote
  rw [quoteLoop_plain print x h]
  rfl

/-- Such a word. -/
example : quote (fun _ => true) b!"12abc" = b!"\"12abc\"" := by decide +kernel

/-- **C131** So the texts for people are UTF-8 if the document is, and that about an address. -/
theorem C131_texts (print : Nat → Bool) {addr : Bytes → Bytes} (ha : ∀ x, Utf8 (addr x)) {src : Bytes} (hs : Utf8 src) (addrOk : Bytes → Bool) :
    CleanTexts (Docs.texts fun it => operandText (goErrors (quote print) addr) addrOk src it.range.start.line.toNat) :=
  C103_texts (fun x => (C131_line print x).2) ha hs addrOk

/-- What is said about a number with a byte that is not UTF-8. -/
example : operandText (goErrors (quote fun _ => true) id) sampleHost.addrOk (b!"int 1" ++ [255]) 0 =
    b!"failed to parse uint64: value: strconv.ParseUint: parsing \"1\\xff\": invalid syntax" := by decide +kernel

end Teal.Props
