import Verif.Lemmas.Tools
import Verif.Lemmas.MessageText
import Verif.Props.Accept
import Verif.Props.Layout
import Verif.Props.Vm
import Verif.Props.Descent

/-!
# Property C116: the small tools

`read p` is the content of the file `p`, if it can be read; `words` is the command line; the first component of
what a tool does is its exit status, the second what it prints.
-/

namespace Teal.Props
open Teal.Spec Teal.Cli Teal.CliSpec

theorem withFile_eq {α : Type} {read : Bytes → Option Bytes} {words : List Bytes} {p src : Bytes} {exits : Nat → α} {f : Bytes → α}
    (hw : Names words p) (hr : read p = some src) : withFile read words exits f = f src := by
  obtain ⟨l, h1, h2⟩ := hw
  unfold withFile
  rw [parse_of_line (by decide) h1]
  dsimp only
  rw [value_iff.1 h2, hr]

theorem lexErrors (src : Bytes) : ((readTokens src).2.map fun e => e.msg.text ++ b!"\n").flatten = [] ∧ ¬ Unclosed src ∨
    ((readTokens src).2.map fun e => e.msg.text ++ b!"\n").flatten = b!"incomplete string\n" ∧ Unclosed src := by
  obtain ⟨err, -, h2⟩ := readTokens_lexes src
  have h3 := C05_error_iff src
  cases err with
  | none =>
    have h2 : (readTokens src).2 = [] := h2
    exact .inl ⟨by rw [h2]; rfl, fun h => h3.2 h h2⟩
  | some pos =>
    refine .inr ⟨by rw [h2]; rfl, h3.1 (by rw [h2]; simp [errDiag])⟩

/-- The command line and the file used in examples. -/
theorem sampleNames : Names [b!"-path=a.teal"] b!"a.teal" :=
  ⟨[(b!"path", b!"a.teal")], line_of_parse _ _ (Nat.le_refl _) _ (by decide +kernel), .last (a := []) rfl (by simp)⟩

def sampleRead (src : Bytes) (p : Bytes) : Option Bytes := if p = b!"a.teal" then some src else none

/-- C116: `tokenize` prints one line for each token, in order, and then whether a string is not closed. -/
theorem C116_tokens {read : Bytes → Option Bytes} {words : List Bytes} {p src : Bytes} (hw : Names words p) (hr : read p = some src) :
    ∃ lines, List.Forall₂ TokenLine (tokens src) lines ∧
      (¬ Unclosed src → tokenize read words = (0, lines.flatten)) ∧
      (Unclosed src → tokenize read words = (0, lines.flatten ++ b!"incomplete string\n")) := by
  refine ⟨(tokens src).map tokenLine, ?_, ?_, ?_⟩
  · generalize tokens src = ts
    induction ts with
    | nil => exact .nil
    | cons t ts ih => exact .cons (tokenLine_is t) ih
  · intro hu
    unfold tokenize
    rw [withFile_eq hw hr]
    rcases lexErrors src with ⟨h, _⟩ | ⟨_, h⟩
    · rw [h, List.append_nil]
    · exact absurd h hu
  · intro hu
    unfold tokenize
    rw [withFile_eq hw hr]
    rcases lexErrors src with ⟨_, h⟩ | ⟨h, _⟩
    · exact absurd hu h
    · rw [h]

example : tokenize (sampleRead b!"int 1 // one\nbyte \"a") [b!"-path=a.teal"] =
    (0, b!"1:1:4: Value = int\n1:5:6: Value = 1\n1:7:13: Comment =  one\n1:13:14: EOL\n2:1:5: Value = byte\nincomplete string\n") := by
  decide +kernel

theorem line_head {t : Token} {s : Bytes} (h : TokenLine t s) : ∃ c z, s = c :: z ∧ c ≠ 105 := by
  obtain ⟨l, b, e, k, h1, -, -, -, rfl⟩ := h
  obtain ⟨h2, h3⟩ := decimal_digits h1
  cases l with
  | nil => exact absurd rfl h2
  | cons c l => exact ⟨c, _, rfl, fun e => absurd (h3 c List.mem_cons_self).2 (by rw [e]; decide)⟩

theorem lines_same {ts us : List Token} {ls ls' : List Bytes} (h1 : List.Forall₂ TokenLine ts ls) (h2 : List.Forall₂ TokenLine us ls')
    (f1 : ∀ t ∈ ts, Fits t) (f2 : ∀ t ∈ us, Fits t) {r r' : Bytes} (hr : r = [] ∨ ∃ z, r = 105 :: z) (hr' : r' = [] ∨ ∃ z, r' = 105 :: z)
    (h : ls.flatten ++ r = ls'.flatten ++ r') : List.Forall₂ SameToken ts us ∧ r = r' := by
  induction h1 generalizing us ls' with
  | nil =>
    cases h2 with
    | nil => exact ⟨.nil, h⟩
    | @cons u s us ls' hu _ =>
      obtain ⟨c, z, rfl, hc⟩ := line_head hu
      rcases hr with rfl | ⟨z, rfl⟩
      · cases h
      · exact absurd (List.cons.inj h).1.symm hc
  | @cons t s ts ls ht _ ih =>
    cases h2 with
    | nil =>
      obtain ⟨c, z, rfl, hc⟩ := line_head ht
      rcases hr' with rfl | ⟨z, rfl⟩
      · cases h
      · exact absurd (List.cons.inj h).1 hc
    | @cons u s' us ls' hu hus =>
      rw [List.flatten_cons, List.flatten_cons, List.append_assoc, List.append_assoc] at h
      obtain ⟨h3, h4⟩ := line_same ht hu (f1 _ List.mem_cons_self) (f2 _ List.mem_cons_self) h
      obtain ⟨h5, h6⟩ := ih hus (fun t m => f1 t (List.mem_cons_of_mem _ m)) (fun t m => f2 t (List.mem_cons_of_mem _ m)) h4
      exact ⟨.cons h3 h5, h6⟩

/-- C116: the output of `tokenize` tells the tokens: files with the same output have the same tokens, up to how the ends
of lines are spelled, and a string is left open in both or in none. -/
theorem C116_alike {read : Bytes → Option Bytes} {words words' : List Bytes} {p q a b : Bytes} (hp : Names words p)
    (hq : Names words' q) (ha : read p = some a) (hb : read q = some b) (h : (tokenize read words).2 = (tokenize read words').2) :
    List.Forall₂ SameToken (tokens a) (tokens b) ∧ (Unclosed a ↔ Unclosed b) := by
  obtain ⟨ls, h1, h2, h3⟩ := C116_tokens hp ha
  obtain ⟨ls', g1, g2, g3⟩ := C116_tokens hq hb
  by_cases u : Unclosed a <;> by_cases u' : Unclosed b
  · rw [h3 u, g3 u'] at h
    obtain ⟨k, -⟩ := lines_same h1 g1 (tokens_fit a) (tokens_fit b) (.inr ⟨_, rfl⟩) (.inr ⟨_, rfl⟩) h
    exact ⟨k, by simp [u, u']⟩
  · rw [h3 u, g2 u'] at h
    obtain ⟨-, k⟩ := lines_same h1 g1 (tokens_fit a) (tokens_fit b) (.inr ⟨_, rfl⟩) (.inl rfl) (h.trans (List.append_nil _).symm)
    cases k
  · rw [h2 u, g3 u'] at h
    obtain ⟨-, k⟩ := lines_same h1 g1 (tokens_fit a) (tokens_fit b) (.inl rfl) (.inr ⟨_, rfl⟩) ((List.append_nil _).trans h)
    cases k
  · rw [h2 u, g2 u'] at h
    obtain ⟨k, -⟩ := lines_same h1 g1 (tokens_fit a) (tokens_fit b) (.inl rfl) (.inl rfl)
      ((List.append_nil _).trans (h.trans (List.append_nil _).symm))
    exact ⟨k, by simp [u, u']⟩

-- files that differ in how lines end, and only there
example : tokenize (sampleRead b!"int 1\rpop") [b!"-path=a.teal"] = tokenize (sampleRead b!"int 1\npop") [b!"-path=a.teal"] ∧
    tokens b!"int 1\rpop" ≠ tokens b!"int 1\npop" := by
  refine ⟨?_, ?_⟩ <;> decide +kernel

-- a line feed in a string does not make one token look like several
example : tokenize (sampleRead b!"\"a\n1:3:4: Value = b\"") [b!"-path=a.teal"] ≠ tokenize (sampleRead b!"\"a b") [b!"-path=a.teal"] := by
  decide +kernel

theorem same_words {ts us : List Token} (h : List.Forall₂ SameToken ts us) (k : Nat) :
    (Spec.words ts k).map Token.v = (Spec.words us k).map Token.v := by
  induction h with
  | nil => rfl
  | @cons t u ts us h _ ih =>
    unfold Spec.words at ih ⊢
    obtain ⟨h1, -, -, h2, h3⟩ := h
    rw [List.filter_cons, List.filter_cons, h1, h2]
    split
    · next hc =>
      have : u.t = .value := by simpa using (Bool.and_eq_true_iff.1 hc).2
      rw [List.map_cons, List.map_cons, ih, h3 (by rw [h2, this]; simp)]
    · exact ih

theorem same_last {ts us : List Token} (h : List.Forall₂ SameToken ts us) : ts.getLast?.map (·.l) = us.getLast?.map (·.l) := by
  induction h with
  | nil => rfl
  | @cons t u ts us h hs ih =>
    cases hs with
    | nil => simp [h.1]
    | cons => simpa [List.getLast?_cons_cons] using ih

/-- C116: files with the same output of `tokenize` are the same program. -/
theorem C116_program {read : Bytes → Option Bytes} {words words' : List Bytes} {p q a b : Bytes} (hp : Names words p)
    (hq : Names words' q) (ha : read p = some a) (hb : read q = some b) (h : (tokenize read words).2 = (tokenize read words').2)
    (env : Env) (r s : ProcessResult) (hr : process env a = some r) (hs : process env b = some s) :
    r.listing = s.listing ∧ r.version = s.version ∧
      ∀ rule k, (∃ d ∈ r.diagnostics, d.kind = .lint rule ∧ d.l = k) ↔ ∃ d ∈ s.diagnostics, d.kind = .lint rule ∧ d.l = k := by
  obtain ⟨h1, -⟩ := C116_alike hp hq ha hb h
  have h2 : lineCount (tokens a) = lineCount (tokens b) := by
    unfold lineCount
    have := same_last h1
    cases hx : (tokens a).getLast? <;> cases hy : (tokens b).getLast? <;> rw [hx, hy] at this <;> simp_all
  obtain ⟨h3, h4, -, -, -, -, h5⟩ := (C71_layout env a b h2 (same_words h1)).2 r s hr hs
  exact ⟨h3, h4, h5⟩

/-- C116: `lint` prints one line for each diagnostic, in order. -/
theorem C116_lint {env : Env} {operand : Diag → Bytes} {read : Bytes → Option Bytes} {words : List Bytes} {p src : Bytes}
    (hw : Names words p) (hr : read p = some src) {r : ProcessResult} (hp : process env src = some r) :
    ∃ lines, lint env operand read words = (0, lines.flatten) ∧ List.Forall₂ (DiagLine operand) r.diagnostics lines := by
  refine ⟨r.diagnostics.map (diagLine operand), ?_, ?_⟩
  · unfold lint
    rw [withFile_eq hw hr, hp]
  · generalize r.diagnostics = ds
    induction ds with
    | nil => exact .nil
    | cons d ds ih =>
      refine .cons ?_ ih
      have hrank : Rank d.kind (severityText (severity d.kind)) := by
        cases d.kind with
        | lint rule => cases rule <;> first | exact .inl ⟨by simp, rfl⟩ | exact .inr ⟨by simp, rfl⟩
        | _ => exact .inr ⟨by simp, rfl⟩
      refine ⟨_, _, _, _, d.kind.text (operand d), formatUint_decimal _, formatUint_decimal _, formatUint_decimal _, hrank, ?_,
        by unfold diagLine; simp⟩
      by_cases ho : OfOperand d.kind
      · exact .inr ⟨ho, operand_text _ ho⟩
      · exact .inl (tells_text _ ho)

example : lint sampleEnv (fun _ => []) (sampleRead b!"#pragma version 8\nb x\nint 1\ny:\n") [b!"-path=a.teal"] =
    (0, b!"3:0-2:warn unused label: \"y\"\n2:0-5:warn unreachable code\n1:0-3:error missing label: \"x\"\n") := by
  decide +kernel

theorem severity_err_iff (k : DiagKind) : severity k = .err ↔
    ¬ ((∃ n, k = .lint (.unusedLabel n)) ∨ k = .lint .unreachable ∨ k = .lint .bJustBefore) := by
  cases k with
  | lint rule => cases rule <;> simp [severity]
  | _ => simp [severity]

theorem blames_iff {operand : Diag → Bytes} {d : Diag} {s : Bytes} (h : DiagLine operand d s) : Blames s ↔ severity d.kind = .err := by
  obtain ⟨l, b, e, r, m, h1, h2, h3, h4, -, rfl⟩ := h
  have dash : ∀ {n : Nat} {s : Bytes}, DecimalOf n s → (45 : UInt8) ∉ s :=
    fun h m => absurd ((decimal_digits h).2 45 m).1 (by decide)
  constructor
  · rintro ⟨i, j, k, l', b', e', m', g1, g2, g3, g⟩
    simp only [List.append_assoc, List.cons_append] at g
    obtain ⟨-, g⟩ := before_eq (decimal_no_colon h1) (decimal_no_colon g1) g
    obtain ⟨-, g⟩ := before_eq (dash h2) (dash g2) g
    obtain ⟨-, g⟩ := before_eq (decimal_no_colon h3) (decimal_no_colon g3) g
    rcases h4 with ⟨-, rfl⟩ | ⟨h, -⟩
    · exact absurd (List.cons.inj g).1 (by decide)
    · exact (severity_err_iff _).2 h
  · intro h
    rcases h4 with ⟨h', -⟩ | ⟨-, rfl⟩
    · exact absurd h' ((severity_err_iff _).1 h)
    · exact ⟨_, _, _, l, b, e, m ++ [10], h1, h2, h3, by simp⟩

/-- C116: in a tidy text, no line of `lint` reports an error exactly if the text is a valid program. -/
theorem C116_clean {env : Env} {operand : Diag → Bytes} {read : Bytes → Option Bytes} {words : List Bytes} {p src : Bytes}
    (hw : Names words p) (hr : read p = some src) {r : ProcessResult} (hp : process env src = some r) (ht : Tidy (tokens src)) :
    ∃ lines, lint env operand read words = (0, lines.flatten) ∧ List.Forall₂ (DiagLine operand) r.diagnostics lines ∧
      ((∀ l ∈ lines, ¬ Blames l) ↔ ∃ os, ValidProgram env.addrOk src (tokens src) os) := by
  obtain ⟨lines, h1, h2⟩ := C116_lint (operand := operand) hw hr hp
  refine ⟨lines, h1, h2, ?_⟩
  rw [← noErrors_iff env src r hp ht]
  unfold NoErrors
  clear h1 hp
  generalize r.diagnostics = ds at h2
  induction h2 with
  | nil => simp
  | cons h _ ih =>
    simp only [List.mem_cons, forall_eq_or_imp, ih, blames_iff h]

/-- C116: if nothing is reported, nothing is printed, and the other way round. -/
theorem C116_silent {env : Env} {operand : Diag → Bytes} {read : Bytes → Option Bytes} {words : List Bytes} {p src : Bytes}
    (hw : Names words p) (hr : read p = some src) {r : ProcessResult} (hp : process env src = some r) :
    lint env operand read words = (0, []) ↔ r.diagnostics = [] := by
  obtain ⟨lines, h1, h2⟩ := C116_lint (operand := operand) hw hr hp
  rw [h1]
  constructor
  · intro h
    have h := (Prod.mk.inj h).2
    generalize hx : r.diagnostics = ds at h2
    cases h2 with
    | nil => rfl
    | @cons d s ds ls hd _ =>
      obtain ⟨l, b, e, r, m, -, -, -, -, -, rfl⟩ := hd
      have := congrArg List.length h
      simp at this
  · intro h
    rw [h] at h2
    cases h2
    rfl

-- a file with a tidy text without errors
example : ∃ r, Names [b!"-path=a.teal"] b!"a.teal" ∧ sampleRead acceptSample b!"a.teal" = some acceptSample ∧
    process sampleEnv acceptSample = some r ∧ Tidy (tokens acceptSample) ∧
    lint sampleEnv (fun _ => []) (sampleRead acceptSample) [b!"-path=a.teal"] = (0, []) := by
  obtain ⟨h1, r, h2, -⟩ := acceptSample_tidy
  exact ⟨r, sampleNames, if_pos rfl, h2, h1, by decide +kernel⟩

/-- C116: `interpret` ends, without an error, exactly if the program of the file runs to an end, and it does
unless the program contains `dupn 255`. -/
theorem C116_interpret_partial {env : Env} {read : Bytes → Option Bytes} {words : List Bytes} {p src : Bytes}
    (hw : Names words p) (hr : read p = some src) {r : ProcessResult} (hp : process env src = some r) :
    (∀ status, interprets env read words status ↔ status = 0 ∧ ∃ v, (Vm.new r.listing r.version).Runs v) ∧
    ((∀ n, .u8 .dupn n ∈ r.listing → n < 255) → ∀ status, interprets env read words status ↔ status = 0) := by
  have h1 : ∀ status, interprets env read words status ↔ status = 0 ∧ ∃ v, (Vm.new r.listing r.version).Runs v := by
    intro status
    unfold interprets
    rw [withFile_eq hw hr, hp]
  refine ⟨h1, fun hd status => ?_⟩
  rw [h1]
  exact and_iff_left (C36_partial (l := r.listing) (version := r.version) .new hd)

-- a program without `dupn 255`
example : (∃ v, interprets sampleEnv (sampleRead acceptSample) [b!"-path=a.teal"] v) := by
  have h : ((process sampleEnv acceptSample).map fun r => r.listing.all fun o => match o with | .u8 .dupn _ => false | _ => true) = some true := by
    decide +kernel
  obtain ⟨r, hr, h⟩ := Option.map_eq_some_iff.1 h
  refine ⟨0, ((C116_interpret_partial sampleNames (if_pos rfl) hr).2 (fun n hn => ?_) 0).2 rfl⟩
  exact absurd (List.all_eq_true.1 h _ hn) (by simp)

/-- After some steps with nothing to stop at, the next step does not return. -/
def hangsAfter : Nat → Vm → Bool
  | 0, v => v.branch.isSome && v.error.isNone && v.step.isNone
  | n + 1, v => v.branch.isSome && v.error.isNone && match v.step with
    | some w => w.triggered.isEmpty && hangsAfter n w
    | none => false

theorem hangs_not_runs : ∀ (n : Nat) (v w : Vm), hangsAfter n v = true → ¬ v.Runs w
  | 0, v, w, h, hr => by
    simp only [hangsAfter, Bool.and_eq_true, Option.isNone_iff_eq_none] at h
    obtain ⟨⟨h1, h2⟩, h3⟩ := h
    cases hr with
    | stop h =>
      rcases h with h | h
      · rw [h] at h1; cases h1
      · exact h h2
    | hit _ _ g _ => rw [h3] at g; cases g
    | next _ _ g _ _ => rw [h3] at g; cases g
  | n + 1, v, w, h, hr => by
    simp only [hangsAfter, Bool.and_eq_true, Option.isNone_iff_eq_none] at h
    obtain ⟨⟨h1, h2⟩, h3⟩ := h
    cases hr with
    | stop h =>
      rcases h with h | h
      · rw [h] at h1; cases h1
      · exact h h2
    | hit _ _ g k =>
      rw [g] at h3
      simp only [Bool.and_eq_true, List.isEmpty_iff] at h3
      exact k h3.1
    | next _ _ g _ k =>
      rw [g] at h3
      simp only [Bool.and_eq_true] at h3
      exact hangs_not_runs n _ _ h3.2 k

/-- C116 fails: there is a program without errors for which `interpret` does not end. -/
theorem C116_false : ∃ (env : Env) (read : Bytes → Option Bytes) (words : List Bytes) (p src : Bytes) (r : ProcessResult),
    Names words p ∧ read p = some src ∧ process env src = some r ∧ NoErrors r ∧ ∀ status, ¬ interprets env read words status := by
  have hn := sampleNames
  obtain ⟨src, h1⟩ : ∃ src, ((process sampleEnv src).map fun r =>
      (r.diagnostics.all fun d => severity d.kind != .err) && hangsAfter 1 (Vm.new r.listing r.version)) = some true :=
    ⟨b!"#pragma version 8\nint 1\ndupn 255\nreturn\n", by decide +kernel⟩
  obtain ⟨r, h2, h3⟩ := Option.map_eq_some_iff.1 h1
  simp only [Bool.and_eq_true, List.all_eq_true, bne_iff_ne] at h3
  refine ⟨sampleEnv, fun _ => some src, _, _, src, r, hn, rfl, h2, h3.1, fun status hs => ?_⟩
  rw [(C116_interpret_partial (read := fun _ => some src) hn rfl h2).1] at hs
  obtain ⟨-, w, hw⟩ := hs
  exact hangs_not_runs _ _ _ h3.2 hw

/-- A file that cannot be read, or a wrong command line, ends each tool with status 2. -/
theorem C116_status {env : Env} {operand : Diag → Bytes} {read : Bytes → Option Bytes} {words : List Bytes} :
    (∀ p, Names words p → read p = none → tokenize read words = (2, []) ∧ lint env operand read words = (2, []) ∧
      ∀ status, interprets env read words status ↔ status = 2) := by
  rintro p ⟨l, h1, h2⟩ hr
  unfold tokenize lint interprets withFile
  rw [parse_of_line (by decide) h1]
  dsimp only
  rw [value_iff.1 h2, hr]
  exact ⟨rfl, rfl, fun _ => Iff.rfl⟩

end Teal.Props
