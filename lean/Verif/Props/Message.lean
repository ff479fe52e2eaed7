import Verif.Spec.Told
import Verif.Lemmas.Message
import Verif.Lemmas.WireOut
import Verif.Lemmas.Quoted
import Verif.Props.Diagnose
import Verif.Props.LintText
import Verif.Props.WireOut

/-!
# What the editor is told in words

C110: the messages of diagnostics.  C111: the titles of code actions and the labels of edits.
-/

namespace Teal.Props

open Teal Spec Teal.Lsp Teal.Lsp.Spec Teal.WireSpec Teal.JsonSpec

theorem says_iff {t : Wire.Texts} {it : LspDiag} {m : Bytes} :
    (∃ ms, Wire.diagOut t it = .obj ms ∧ Has ms b!"message" (IsStr m)) ↔ it.kind.text (t.operand it) = m := by
  constructor
  · rintro ⟨ms, e, h⟩
    cases e
    obtain ⟨v, hv, -, e⟩ := has_pick h (f := b!"message") (by decide) rfl
    have : pick [(b!"range", Wire.rangeOut it.range), (b!"severity", Wire.num it.severity), (b!"message", .str (it.kind.text (t.operand it)))]
        b!"message" = some (.str (it.kind.text (t.operand it))) := rfl
    rw [this] at hv
    cases hv
    cases e
    rfl
  · rintro rfl
    exact ⟨_, rfl, has_find (by decide) rfl rfl⟩

theorem told_kind {t : Wire.Texts} {items : List LspDiag} (ht : ∀ it ∈ items, OfOperand it.kind → Foreign (t.operand it)) {k : Nat} {K : DiagKind} {m : Bytes} (hm : Tells K m) :
    Told t items k m ↔ ∃ it ∈ items, it.range.start.line = k ∧ it.kind = K := by
  unfold Told
  simp only [says_iff]
  constructor
  · rintro ⟨it, h1, h2, h3⟩
    exact ⟨it, h1, h2, (text_iff (ht it h1) hm).1 h3⟩
  · rintro ⟨it, h1, h2, h3⟩
    exact ⟨it, h1, h2, (text_iff (ht it h1) hm).2 h3⟩

theorem told_diag {h : Host} {ms : List (Choice × Msg)} {u src : Bytes} {items : List LspDiag} (ha : Diagnosed h ms u src items)
    {t : Wire.Texts} (ht : ∀ it ∈ items, OfOperand it.kind → Foreign (t.operand it)) : ∃ mp r, process ⟨h.addrOk, mp⟩ src = some r ∧
      ∀ {k : Nat} {K : DiagKind} {m : Bytes}, Tells K m → (Told t items k m ↔ ∃ d ∈ r.diagnostics, d.kind = K ∧ d.l = k) := by
  obtain ⟨mp, r, hr, hd⟩ := diagnosed ha
  refine ⟨mp, r, hr, ?_⟩
  intro k K m hm
  rw [told_kind ht hm]
  unfold doDiagnostic at hd
  injection hd with hd
  subst hd
  simp only [List.mem_map]
  constructor
  · rintro ⟨_, ⟨d, hd, rfl⟩, h1, h2⟩
    exact ⟨d, hd, h2, Int.ofNat_inj.1 h1⟩
  · rintro ⟨d, hd, h1, h2⟩
    exact ⟨_, ⟨d, hd, rfl⟩, congrArg Int.ofNat h2, h1⟩

/-- **C110** The messages tell the kinds of problems apart, and say which: two diagnostics with the same message are about the
same thing, unless it is about an operand. -/
theorem C110_apart {t : Wire.Texts} (ht : ∀ it, OfOperand it.kind → Foreign (t.operand it)) (it : LspDiag) (hk : ¬ OfOperand it.kind) :
    ∃ ms m, Wire.diagOut t it = .obj ms ∧ Has ms b!"message" (IsStr m) ∧ Tells it.kind m ∧
      ∀ it' ms', Wire.diagOut t it' = .obj ms' → Has ms' b!"message" (IsStr m) → it'.kind = it.kind := by
  obtain ⟨ms, h1, h2⟩ := says_iff.2 (rfl : it.kind.text (t.operand it) = _)
  refine ⟨ms, _, h1, h2, tells_text _ hk, ?_⟩
  intro it' ms' e h
  exact (text_iff (ht it') (tells_text _ hk)).1 (says_iff.1 ⟨ms', e, h⟩)

/-- **C110** A word the editor is told to be unknown begins the line, and no such opcode or pragma exists; and the editor is told
of every such word. -/
theorem C110_words {h : Host} {ms : List (Choice × Msg)} {u src : Bytes} {items : List LspDiag} (ha : Diagnosed h ms u src items)
    {t : Wire.Texts} (ht : ∀ it ∈ items, OfOperand it.kind → Foreign (t.operand it)) (k : Nat) (w : Bytes) :
    (Told t items k (b!"unknown opcode: " ++ w) ↔ NoSuchOpcode (tokens src) k w) ∧
    (Told t items k (b!"unexpected #pragma: " ++ w) ↔ NoSuchPragma (tokens src) k w) := by
  obtain ⟨mp, r, hr, hiff⟩ := told_diag ha ht
  rw [hiff (.opcode w), hiff (.pragma w), (quotes_at hr k w).1, (quotes_at hr k w).2]
  have hv : ∀ x ∈ words (tokens src) k, x.t = .value := fun x hx => (mem_words.1 hx).2.2
  constructor
  · constructor
    · rintro ⟨x, rest, e, -, rfl, h1, h2, h3⟩
      refine ⟨x, by rw [e]; rfl, rfl, ?_, h2, h3⟩
      intro d hd hn
      have := (docOps_plain d hd).1
      rw [hn, h1] at this
      cases this
    · rintro ⟨x, e, rfl, h1, h2, h3⟩
      obtain ⟨rest, e⟩ : ∃ rest, words (tokens src) k = x :: rest := by
        cases hw : words (tokens src) k with
        | nil => rw [hw] at e; cases e
        | cons y rest => rw [hw] at e; cases e; exact ⟨_, rfl⟩
      refine ⟨x, rest, e, hv x (by rw [e]; simp), rfl, ?_, h2, h3⟩
      cases hg : opsGet x.v with
      | none => rfl
      | some o =>
        obtain ⟨d, hd, hn⟩ := docOps_names o (opsGet_mem hg).1
        exact absurd (hn.trans (opsGet_mem hg).2) (h1 d hd)
  · constructor
    · rintro ⟨x, y, rest, e, -, h1, h2, h3⟩
      exact ⟨x, y, rest, e, h1, h2, h3⟩
    · rintro ⟨x, y, rest, e, h1, h2, h3⟩
      exact ⟨x, y, rest, e, hv x (by rw [e]; simp), h1, h2, h3⟩

/-- **C110** What the editor is told about the labels and pragmas of a program is true, and names the right label. -/
theorem C110_lines {h : Host} {ms : List (Choice × Msg)} {u src : Bytes} {items : List LspDiag} (ha : Diagnosed h ms u src items)
    {t : Wire.Texts} (ht : ∀ it ∈ items, OfOperand it.kind → Foreign (t.operand it)) {os : List Op} (hp : Program h.addrOk 1 (wordLines (tokens src)) os) (k : Nat) (n : Bytes) :
    (Told t items k (b!"duplicate label: \"" ++ n ++ b!"\"") ↔ ∃ j, DefinedAt os n k ∧ j ≠ k ∧ DefinedAt os n j) ∧
    (Told t items k (b!"unused label: \"" ++ n ++ b!"\"") ↔ DefinedAt os n k ∧ ¬ ∃ i o, Teal.Spec.At os i o ∧ Refers o n) ∧
    (Told t items k (b!"missing label: \"" ++ n ++ b!"\"") ↔ ∃ o, Teal.Spec.At os k o ∧ Refers o n ∧ ¬ ∃ j, DefinedAt os n j) ∧
    (Told t items k b!"unconditional branch just before the target label" ↔ ∃ n j, Teal.Spec.At os k (.branch .b n) ∧ k < j ∧ DefinedAt os n j ∧
      ∀ i, k < i → i < j → ∃ o, Teal.Spec.At os i o ∧ NoOp o ∧ ∀ n', ¬ DefinedAt os n' i) ∧
    (Told t items k b!"#pragma version is only allowed before instructions" ↔
      (∃ v, Teal.Spec.At os k (.pragma v)) ∧ ∃ i o, i < k ∧ Teal.Spec.At os i o ∧ (¬ NoOp o ∨ ∃ v, o = .pragma v)) := by
  obtain ⟨mp, r, hr, hiff⟩ := told_diag ha ht
  have := C89_lines ⟨h.addrOk, mp⟩ src os r hp hr k n
  rw [hiff (.duplicate n), hiff (.unused n), hiff (.missing n), hiff .useless, hiff .late]
  exact this

/-- **C110** What the editor is told about the flow of a program is true of all its executions. -/
theorem C110_flow {h : Host} {ms : List (Choice × Msg)} {u src : Bytes} {items : List LspDiag} (ha : Diagnosed h ms u src items)
    {t : Wire.Texts} (ht : ∀ it ∈ items, OfOperand it.kind → Foreign (t.operand it)) {os : List Op} (hp : Program h.addrOk 1 (wordLines (tokens src)) os) (k : Nat) :
    (Told t items k b!"unreachable code" → ∀ rs, ¬ Steps os (0, []) (k, rs)) ∧
    (Told t items k b!"infinite loop" → ∃ n j, Teal.Spec.At os k (.branch .b n) ∧ DefinedAt os n j ∧ j < k ∧
      ∀ i rs c, j ≤ i → i ≤ k → Steps os (i, rs) c → j ≤ c.1 ∧ c.1 ≤ k ∧ ∀ o, Teal.Spec.At os c.1 o → ¬ Halts o) := by
  obtain ⟨mp, r, hr, hiff⟩ := told_diag ha ht
  rw [hiff .unreachable, hiff .loop]
  exact ⟨(C89_unreachable_partial ⟨h.addrOk, mp⟩ src os r hp hr k).1, (C89_loops ⟨h.addrOk, mp⟩ src os r hp hr k).1⟩

/-- **C110** (partial: `args` is excluded, see `C22_false`.)  The editor is told which version an instruction needs and which is
in force, in decimal, and in which mode it is not available, exactly if that is so. -/
theorem C110_available_partial {h : Host} {ms : List (Choice × Msg)} {u src : Bytes} {items : List LspDiag} (ha : Diagnosed h ms u src items)
    {t : Wire.Texts} (ht : ∀ it ∈ items, OfOperand it.kind → Foreign (t.operand it)) {k V : Nat} (hV : VersionAt (tokens src) k V) {sig : Bool} (hsig : sig = true ↔ SigAt (tokens src) k)
    {w : Token} (hw : (words (tokens src) k).head? = some w) {d : DocOp} (hd : d ∈ docOps) (hn : d.name = w.v) (hargs : d.name ≠ b!"args") :
    (∀ min cur m c, DecimalOf min m → DecimalOf cur c →
      (Told t items k (b!"opcode requires version >= " ++ m ++ b!" (current: " ++ c ++ b!")") ↔ d.since sig = some min ∧ V < min ∧ cur = V)) ∧
    (Told t items k b!"opcode not available in the current mode: application" ↔ d.since sig = none ∧ sig = false) ∧
    (Told t items k b!"opcode not available in the current mode: logicsig" ↔ d.since sig = none ∧ sig = true) := by
  obtain ⟨mp, r, hr, hiff⟩ := told_diag ha ht
  have hl := (mem_words.1 (List.mem_of_mem_head? hw)).2.1
  have key : ∀ K : DiagKind, ((∃ m, K = .mode m) ∨ ∃ min cur, K = .version min cur) →
      ((∃ x ∈ r.diagnostics, x.kind = K ∧ x.l = k) ↔ ⟨K, w.l, w.b, w.e⟩ ∈ r.diagnostics) := by
    intro K hK
    constructor
    · rintro ⟨x, hx, rfl, hxl⟩
      obtain ⟨j, y, h1, h2, h3, h4, -⟩ := C22_only _ src r hr x hx hK
      have : j = k := by omega
      subst this
      rw [hw] at h1
      cases h1
      obtain ⟨K, l, b, e⟩ := x
      dsimp only at h2 h3 h4 hx
      rw [h2, h3, h4] at hx
      rw [hl]
      exact hx
    · intro hm
      exact ⟨_, hm, rfl, hl⟩
  refine ⟨?_, ?_, ?_⟩
  · intro min cur m c hm hc
    rw [hiff (.version min cur m c hm hc), key _ (.inr ⟨_, _, rfl⟩)]
    exact C22_version_partial _ src r hr k V hV sig hsig w hw d hd hn hargs min cur
  · rw [hiff .app, key _ (.inl ⟨_, rfl⟩), C23_mode_partial _ src r hr k sig hsig w hw d hd hn hargs .app]
    cases sig <;> simp
  · rw [hiff .sig, key _ (.inl ⟨_, rfl⟩), C23_mode_partial _ src r hr k sig hsig w hw d hd hn hargs .sig]
    cases sig <;> simp

theorem sample_apart : ∀ it, Foreign (sampleTexts.operand it) := by
  intro it
  show Foreign b!"m"
  unfold Foreign
  decide

/-- The text of `C89_lines`, in an editor: each of the messages above is sent. -/
example : ∃ items, Diagnosed sampleHost (openSession lintSample) b!"u" lintSample items ∧
    items.map (fun it => (it.range.start.line, it.kind.text (sampleTexts.operand it))) =
      [(4, b!"opcode requires version >= 2 (current: 1)"), (7, b!"opcode requires version >= 2 (current: 1)"),
       (0, b!"duplicate label: \"x\""), (1, b!"duplicate label: \"x\""), (0, b!"unused label: \"x\""), (1, b!"unused label: \"x\""),
       (3, b!"unreachable code"), (4, b!"unreachable code"), (9, b!"unreachable code"),
       (4, b!"unconditional branch just before the target label"), (9, b!"missing label: \"q\""), (7, b!"infinite loop"),
       (8, b!"#pragma version is only allowed before instructions")] := by
  refine ⟨_, open_diagnosed _ _ rfl, by decide +kernel⟩

/-- An unknown word, an unknown pragma, and an instruction that is not for logic signatures. -/
example : ∃ items, Diagnosed sampleHost (openSession b!"// #pragma mode logicsig\nfoo 1\n#pragma bar\nlog") b!"u"
      b!"// #pragma mode logicsig\nfoo 1\n#pragma bar\nlog" items ∧
    items.map (fun it => (it.range.start.line, it.kind.text (sampleTexts.operand it))) =
      [(1, b!"unknown opcode: foo"), (2, b!"unexpected #pragma: bar"), (3, b!"opcode not available in the current mode: logicsig")] := by
  refine ⟨_, open_diagnosed _ _ rfl, by decide +kernel⟩

/-! ## Titles -/

/-- **C111** The title of every fix the editor offers says what the fix does: it names the label whose line goes, the label
that is created, the field or the text that replaces a value, and the version.  The title of the command agrees with it. -/
theorem C111_titles (h : Host) (ms : List (Choice × Msg)) (u src : Bytes) (rg : Rg) (cs : List Action)
    (ha : Answered h ms u src (.codeAction rg) (.codeActions cs)) (env : Env) (henv : env.addrOk = h.addrOk) (r : ProcessResult)
    (hr : process env src = some r) : ∀ a ∈ cs, Titled r.listing (tokens src) a := by
  obtain ⟨ch, mp, r', hr', hans⟩ := answered ha
  simp only [answer] at hans
  obtain ⟨cs', hcs, e⟩ := Option.map_eq_some_iff.1 hans
  cases e
  unfold codeActions at hcs
  obtain ⟨ps, hps, rfl⟩ := Option.map_eq_some_iff.1 hcs
  obtain ⟨m1, m2⟩ := inlayHints_mem hr' hps
  have e1 := (process_same henv hr hr').1
  intro a hm
  simp only [List.mem_append, List.mem_map] at hm
  rcases hm with (((⟨d, hd, rfl⟩ | ⟨t, ht, rfl⟩) | ⟨⟨t, n⟩, hx, rfl⟩) | ⟨⟨t, bs⟩, hx, rfl⟩) | ⟨v, hv, rfl⟩
  · have hd := (List.mem_filter.1 hd).1
    rw [process_redundants hr', ← e1] at hd
    cases d with
    | label i n =>
      obtain ⟨h3, h4⟩ := (C28_unused_labels _ _ i n).1.1 ((C28_redundant_lines _ _ i n).1.1 hd)
      exact .label u n i h3 h4
    | b i =>
      obtain ⟨n, j, h1, h2, h3, h4⟩ := (C30_rule _ _ i).1 ((C28_redundant_lines _ _ i []).2.1 hd)
      exact .jump u n i h1 (.jump n j h1 h2 h3 h4)
  · exact .create u t.v
  · exact .named u n t ((m1 t n).1 hx).1
  · exact .literal u bs t ((m2 t bs).1 hx).1
  · exact .version u v.version _ (formatUint_decimal _)

/-- **C111** The change the server asks for carries the name of what the command does. -/
theorem C111_labels (h : Host) (ms : List (Choice × Msg)) (ch : Choice) (id : Bytes) (c : Command) (n label u : Bytes) (es : List TextEdit)
    (hs : (run h (ms ++ [(ch, ⟨false, id, .executeCommand (.given (some [c]))⟩)])).sent = (run h ms).sent ++ [.applyEdit n label u es]) :
    label = commandLabel c := by
  by_cases hrun : Running h ms
  · rw [run_running hrun] at hs
    cases hh : handle h ch (run h ms).st ⟨false, id, .executeCommand (.given (some [c]))⟩ with
    | none => rw [hh] at hs; simp at hs
    | some o =>
      rw [hh] at hs
      simp only [List.append_cancel_left_eq] at hs
      simp only [handle, handleRequest] at hh
      simp only [Bool.false_eq_true, if_false] at hh
      split at hh
      · cases hh; cases hs
      · cases c <;> simp only [execute] at hh <;> split at hh
        all_goals first
          | (cases hh; cases hs; done)
          | (cases hh; cases hs; rfl)
          | (obtain ⟨x, -, rfl⟩ := Option.map_eq_some_iff.1 hh; cases hs; rfl)
  · exfalso
    rw [run_stopped] at hs
    · simp at hs
    · unfold Running at hrun
      cases h1 : (run h ms).crashed with
      | true => rfl
      | false =>
        cases h2 : (run h ms).st.exit with
        | true => rfl
        | false => exact absurd ⟨h1, h2⟩ hrun

/-- All kinds of fixes, with their titles. -/
example : Answered sampleHost (openSession b!"l:\nb y\ntxn 1\nbyte 0x4122\nb z\nz:") b!"u" b!"l:\nb y\ntxn 1\nbyte 0x4122\nb z\nz:"
      (.codeAction ⟨⟨0, 0⟩, ⟨5, 11⟩⟩)
    (.codeActions [⟨b!"Remove label 'l'", b!"Remove label 'l'", .lineRemove b!"u" 0⟩, ⟨b!"Remove b call", b!"Remove b call", .lineRemove b!"u" 4⟩,
      ⟨b!"Create label 'y'", b!"Create label", .labelCreate b!"u" b!"y"⟩,
      ⟨b!"Replace with 'Fee'", b!"Replace with named const", .valueReplace b!"u" (Lsp.onLine 2 4 5) b!"Fee"⟩,
      ⟨b!"Replace with literal 'A\"'", b!"Replace with literal", .valueReplace b!"u" (Lsp.onLine 3 5 11) (quoted b!"A\"")⟩,
      ⟨b!"Update version to 2", b!"Update version", .versionUpdate b!"u" 2⟩, ⟨b!"Update version to 2", b!"Update version", .versionUpdate b!"u" 2⟩]) :=
  open_answered _ _ _ (by decide +kernel)

/-- A label that is created, by its name. -/
example : (run sampleHost (openSession b!"b y" ++ [(sampleChoice, ⟨false, b!"9", .executeCommand (.given (some [.labelCreate b!"u" b!"y"]))⟩)])).sent =
    (run sampleHost (openSession b!"b y")).sent ++ [.applyEdit b!"1" b!"Create label: y" b!"u" [⟨⟨⟨1, 0⟩, ⟨1, 6⟩⟩, b!"\r\ny:\r\n"⟩]] := by decide +kernel

end Teal.Props
