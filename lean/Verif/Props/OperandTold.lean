import Verif.Props.Operand
import Verif.Props.Message

/-!
# Properties: what the editor is told about operands
-/

namespace Teal.Props

open Teal Spec Teal.Lsp Teal.Lsp.Spec Teal.WireSpec Teal.JsonSpec

theorem foreign_lit (q x : Bytes) (h : ∀ p ∈ heads, p.take q.length ≠ q.take p.length) : Foreign (q ++ x) := by
  rintro p hp ⟨y, hy⟩
  apply h p hp
  have h1 : p.take q.length = (p ++ y).take (min q.length p.length) := by
    rw [← List.take_take, List.take_left]
  have h2 : q.take p.length = (q ++ x).take (min p.length q.length) := by
    rw [← List.take_take, List.take_left]
  rw [h1, h2, hy, Nat.min_comm]

theorem bytes_foreign {e : ErrorTexts} (he : ForeignTexts e) {x : Bytes} {ws : List Bytes} {n : Nat} {why : ParseWhy} {m : Bytes}
    (h : bytesError e x ws = some (n, why, m)) : Foreign m := by
  unfold bytesError at h
  dsimp only at h
  repeat' split at h
  all_goals first
    | (cases h; done)
    | (cases h; first | exact he.base32 _ | exact he.base64 _ | exact he.hex _ | exact he.string _ | (exact foreign_lit _ _ (by decide)) |
        (unfold Foreign; decide))

theorem needText_foreign (a b : Nat) : Foreign (needText a b) := by
  unfold needText
  simp only [List.append_assoc]
  exact foreign_lit _ _ (by decide)

theorem reader_foreign {e : ErrorTexts} {r : FieldReader} {v : Nat} {x m : Bytes} (h : readerError e r v x = some m) : Foreign m := by
  cases r with
  | group g =>
    simp only [readerError, fieldError] at h
    repeat' split at h
    all_goals first
      | (cases h; done)
      | (cases h; first | exact needText_foreign _ _ | exact foreign_lit _ _ (by decide))
  | txn c =>
    replace h : txnFieldError e c v x = some m := h
    unfold txnFieldError at h
    repeat' split at h
    all_goals try dsimp only at h
    all_goals repeat' split at h
    all_goals first
      | (cases h; done)
      | (cases h; first | exact needText_foreign _ _ | exact foreign_lit _ _ (by decide) | (unfold Foreign; decide))

theorem prefix_foreign (r : FieldReader) (name m : Bytes) (h : Foreign m) : Foreign (r.prefix_ name ++ m) := by
  unfold FieldReader.prefix_
  split
  all_goals first
    | exact h
    | (simp only [List.append_assoc]; exact foreign_lit _ _ (by decide))

theorem arg_foreign {e : ErrorTexts} (he : ForeignTexts e) {addrOk : Bytes → Bool} {v : Nat} {name : Bytes} {ty : ArgType} {x : Bytes}
    {ws : List Bytes} {n : Nat} {why : ParseWhy} {m : Bytes} (h : argError e addrOk v name ty x ws = some (n, why, m))
    (hw : why ≠ .missingQuotes) : Foreign m := by
  unfold argError at h
  cases ty with
  | bytes => exact bytes_foreign he h
  | field r =>
    obtain ⟨m', h1, h2⟩ := Option.map_eq_some_iff.1 h
    cases h2
    exact prefix_foreign r name m' (reader_foreign h1)
  | label => cases h
  | _ =>
    dsimp only at h
    split at h
    all_goals first
      | (cases h; done)
      | (cases h; exact absurd rfl hw)
      | (cases h; first | exact he.addr _ | (simp only [List.append_assoc]; exact foreign_lit _ _ (by decide)))

theorem walk_foreign {e : ErrorTexts} (he : ForeignTexts e) {addrOk : Bytes → Bool} : ∀ (ws : List Bytes) (v : Nat) (as : List DocArg) (b : Bool)
    (n : Nat) (why : ParseWhy) (m : Bytes), walkArgs e addrOk v as b ws = some (n, why, m) → why ≠ .missingQuotes → Foreign m := by
  intro ws
  induction ws with
  | nil =>
    intro v as b n why m h hw
    cases as with
    | nil => cases b <;> cases h
    | cons a as =>
      unfold walkArgs at h
      split at h
      · cases h
      · cases h
        exact foreign_lit _ _ (by decide)
  | cons x ws ih =>
    intro v as b n why m h hw
    cases b with
    | true => cases as <;> exact ih v _ false n why m h hw
    | false =>
      cases as with
      | nil => cases h
      | cons a as =>
        unfold walkArgs at h
        cases ha : argError e addrOk v a.name a.type x ws with
        | none => rw [ha] at h; exact ih _ _ _ _ _ _ h hw
        | some y =>
          rw [ha] at h
          cases h
          exact arg_foreign he ha hw

theorem operand_foreign {e : ErrorTexts} (he : ForeignTexts e) {addrOk : Bytes → Bool} {v : Nat} {w : Bytes} {ws : List Bytes} {n : Nat}
    {why : ParseWhy} {m : Bytes} (h : operandError e addrOk v w ws = some (n, why, m)) (hw : why ≠ .missingQuotes) : Foreign m := by
  unfold operandError at h
  split at h
  · cases h
  split at h
  · unfold pragmaError at h
    repeat' split at h
    all_goals first
      | (cases h; done)
      | (cases h; first | exact foreign_lit _ _ (by decide) | (unfold Foreign; decide))
  · split at h
    · exact walk_foreign he _ _ _ _ _ _ _ h hw
    · cases h

theorem operandError_quotes {e : ErrorTexts} {addrOk : Bytes → Bool} {v : Nat} {w : Bytes} {ws : List Bytes} {n : Nat} {m : Bytes}
    (h : operandError e addrOk v w ws = some (n, .missingQuotes, m)) : m = b!"missing quotes" := by
  unfold operandError at h
  split at h
  · cases h
  split at h
  · unfold pragmaError at h
    repeat' split at h
    all_goals cases h
  · split at h
    · exact walk_quotes _ _ _ _ _ _ h
    · cases h

theorem ofOperand_iff (k : DiagKind) : OfOperand k ↔ ∃ w, k = .parse w ∧ w.ofOperand = true ∧ w ≠ .missingQuotes := by
  constructor
  · rintro ⟨⟩ <;> exact ⟨_, rfl, rfl, by simp⟩
  · rintro ⟨w, rfl, h1, h2⟩
    cases w <;> first | (cases h1; done) | exact absurd rfl h2 | constructor

/-- The texts about operands are those of `src`. -/
theorem C121_foreign {e : ErrorTexts} (he : ForeignTexts e) {h : Host} {ms : List (Choice × Msg)} {u src : Bytes} {items : List LspDiag}
    (ha : Diagnosed h ms u src items) {t : Wire.Texts} (ht : ∀ it, t.operand it = operandText e h.addrOk src it.range.start.line.toNat) :
    ∀ it ∈ items, OfOperand it.kind → Foreign (t.operand it) := by
  obtain ⟨mp, r, hr, hd⟩ := diagnosed ha
  unfold doDiagnostic at hd
  injection hd with hd
  subst hd
  intro it hit hk
  obtain ⟨d, hd, rfl⟩ := List.mem_map.1 hit
  rw [ht]
  show Foreign (operandText e h.addrOk src d.l)
  obtain ⟨w, h1, h2, h3⟩ := (ofOperand_iff _).1 hk
  have hod : OperandDiag d.l d := (operandDiag_iff _ _).2 ⟨rfl, w, h1, h2⟩
  obtain ⟨tk, rest, hw, -⟩ := C120_elsewhere _ src r hr d.l d hd hod
  obtain ⟨os, hrun, -⟩ := process_run hr
  have hlt : d.l < lineCount (tokens src) := words_lt (by rw [hw]; simp)
  have hv := (carry_version h.addrOk src os hrun d.l (Nat.le_of_lt hlt) _).2 rfl
  have hline := line_operands (e := e) hr hw hv
  cases hx : operandError e h.addrOk (carryAt {} os d.l).version tk.v (rest.map Token.v) with
  | none =>
    rw [hx] at hline
    exact absurd hod (hline d hd)
  | some x =>
    obtain ⟨n, why, m⟩ := x
    rw [hx] at hline
    obtain ⟨y, -, h4⟩ := hline
    obtain ⟨h5, h6⟩ := (h4 d).1 ⟨hd, hod⟩
    have h7 : d.kind = .parse why := by rw [h5]; rfl
    have h1 : d.kind = .parse w := h1
    rw [h1] at h7
    cases h7
    have h8 := operand_diag_text (e := e) hr hw hv hx (fun hq => absurd hq h3) h6 rfl h1
    unfold Diag.text at h8
    rw [operand_text _ hk] at h8
    rw [h8]
    exact operand_foreign he hx h3

/-- From the diagnostics to what is sent. -/
theorem editor_says {e : ErrorTexts} {h : Host} {ms : List (Choice × Msg)} {u src : Bytes} {items : List LspDiag}
    (ha : Diagnosed h ms u src items) {t : Wire.Texts} (ht : ∀ it, t.operand it = operandText e h.addrOk src it.range.start.line.toNat)
    {k : Nat} {line : List Token} {said : Nat → Bytes → Prop}
    (hs : ∀ mp r, process ⟨h.addrOk, mp⟩ src = some r → SaysExactly (fun d => d.text e h.addrOk src) r.diagnostics k line said) :
    EditorSays t items k line said := by
  obtain ⟨mp, r, hr, hd⟩ := diagnosed ha
  have hs := hs mp r hr
  unfold doDiagnostic at hd
  injection hd with hd
  subst hd
  constructor
  · intro i m hi
    obtain ⟨x, d, h1, h2, h3, h4, h5, h6⟩ := hs.all i m hi
    refine ⟨x, _, h1, List.mem_map.2 ⟨d, h2, rfl⟩, _, rfl, has_find (by decide) rfl ?_, has_find (by decide) rfl ?_, has_find (by decide) rfl ?_⟩
    · rw [h3.1, h4, h5]
      exact sees_range _
    · obtain ⟨w, h7, -⟩ := ((operandDiag_iff _ _).1 h3).2
      rw [h7]
      exact num_integer 1
    · rw [ht]
      exact congrArg Json.str h6
  · rintro m ⟨it, hit, hk, hsay⟩ hm
    rw [says_iff] at hsay
    obtain ⟨d, hd, rfl⟩ := List.mem_map.1 hit
    rw [ht] at hsay
    have hl : d.l = k := Int.ofNat_inj.1 hk
    have hod : OperandDiag k d := by
      rw [operandDiag_iff]
      refine ⟨hl, ?_⟩
      by_cases ho : OfOperand d.kind
      · obtain ⟨w, h1, h2, -⟩ := (ofOperand_iff _).1 ho
        exact ⟨w, h1, h2⟩
      · have htl : Tells d.kind m := hsay ▸ tells_text _ ho
        rcases hm with hm | rfl
        · obtain ⟨p, h1, h2⟩ := tells_head htl
          exact absurd h2 (hm p h1)
        · exact ⟨.missingQuotes, tells_inj htl .quotes rfl, rfl⟩
    obtain ⟨i, x, h1, h2, h3, h4⟩ := hs.only d hd hod
    refine ⟨i, ?_⟩
    rw [← hsay]
    exact h4

/-- **C121** (partial: with the exceptions of C120.)  The editor is told exactly what is wrong with the operands of an instruction,
at the word it is about. -/
theorem C121_partial {e : ErrorTexts} {h : Host} {ms : List (Choice × Msg)} {u src : Bytes} {items : List LspDiag}
    (ha : Diagnosed h ms u src items) {t : Wire.Texts} (ht : ∀ it, t.operand it = operandText e h.addrOk src it.range.start.line.toNat)
    (k : Nat) (x : Token) (rest : List Token) (ver : Nat) (hw : words (tokens src) k = x :: rest)
    (hv : VersionAt (tokens src) k ver) (hd : ∃ d ∈ docOps, d.name = x.v)
    (harr : x.v ∈ arrayOps → ∀ y ∈ rest.map Token.v, ∀ d ∈ txnFields, d.name = y → d.array = true → d.since ≤ ver)
    (hclosed : x.v ∈ byteConstOps → ∀ y ∈ rest.map Token.v, Closed y) :
    ∃ os : List Operand, (x.v ≠ b!"gitxna" → Describes x.v os) ∧
      (x.v ∉ [b!"replace", b!"extract", b!"txn", b!"gtxns", b!"gtxn"] → ∀ active, ShowsSignature x.v os (Wire.signatureOut t x.v active)) ∧
      EditorSays t items k (x :: rest) (Blames e h.addrOk ver x.v false 1 os (rest.map Token.v)) := by
  obtain ⟨en, he⟩ := Option.isSome_iff_exists.1 ((known_op x.v).2 hd)
  refine ⟨en.docArgs.map DocArg.operand, shown_ops he, fun hx active => shows_signature he t hx active, ?_⟩
  refine editor_says (e := e) ha ht fun mp r hr => ?_
  have hs := operands_said (e := e) (env := ⟨h.addrOk, mp⟩) he hr hw hv harr hclosed
  exact hs

/-- **C121**, of lines with `#pragma`. -/
theorem C121_pragma {e : ErrorTexts} {h : Host} {ms : List (Choice × Msg)} {u src : Bytes} {items : List LspDiag}
    (ha : Diagnosed h ms u src items) {t : Wire.Texts} (ht : ∀ it, t.operand it = operandText e h.addrOk src it.range.start.line.toNat)
    (k : Nat) (x : Token) (rest : List Token) (hw : words (tokens src) k = x :: rest) (hp : x.v = b!"#pragma") :
    EditorSays t items k (x :: rest) (PragmaBlames e (rest.map Token.v)) :=
  editor_says ha ht fun _ r hr => C120_pragma e _ src r hr k x rest hw hp

/-- The texts of `sampleErrors`, for a program. -/
def textsFor (src : Bytes) : Wire.Texts :=
  { sampleTexts with operand := fun it => operandText sampleErrors sampleHost.addrOk src it.range.start.line.toNat }

example : ForeignTexts sampleErrors :=
  ⟨fun s => foreign_lit _ _ (by decide), fun s => foreign_lit _ _ (by decide), fun s => foreign_lit _ _ (by decide),
   fun s => foreign_lit _ _ (by decide), fun s => foreign_lit _ _ (by decide)⟩

/-- What an editor is told about a text. -/
example : ∃ items, Diagnosed sampleHost (openSession b!"gload 1 256\nmethod x\nb") b!"u" b!"gload 1 256\nmethod x\nb" items ∧
    items.map (fun it => (it.range.start.line, it.range.start.character, it.kind.text ((textsFor b!"gload 1 256\nmethod x\nb").operand it))) =
      [(0, 0, b!"opcode requires version >= 4 (current: 1)"), (0, 8, b!"failed to parse uint8: i: uint8? 256"), (1, 7, b!"missing quotes"),
       (2, 0, b!"opcode requires version >= 2 (current: 1)"), (2, 0, b!"missing arg: label")] := by
  refine ⟨_, open_diagnosed _ _ rfl, by decide +kernel⟩

end Teal.Props
