import Verif.Lemmas.OperandLine
import Verif.Props.Instr
import Verif.Props.Signature

/-!
# Properties: what is said about operands
-/

namespace Teal.Props

open Teal Teal.Spec Teal.WireSpec Teal.JsonSpec Teal.Wire

theorem operandDiag_iff (k : Nat) (d : Diag) : OperandDiag k d ↔ d.l = k ∧ ∃ w, d.kind = .parse w ∧ w.ofOperand = true := by
  unfold OperandDiag
  constructor
  · rintro ⟨h1, h2⟩
    refine ⟨h1, ?_⟩
    simp only [List.mem_cons, List.not_mem_nil, or_false] at h2
    rcases h2 with h | h | h | h | h | h | h | h <;> exact ⟨_, h, rfl⟩
  · rintro ⟨h1, w, h2, h3⟩
    refine ⟨h1, ?_⟩
    rw [h2]
    cases w <;> first | (cases h3; done) | simp

/-- The operand errors of a line are its diagnostics. -/
theorem line_operands {e : ErrorTexts} {env : Env} {src : Bytes} {r : ProcessResult} (h : process env src = some r)
    {k : Nat} {t : Token} {rest : List Token} {ver : Nat} (hw : words (tokens src) k = t :: rest) (hv : VersionAt (tokens src) k ver) :
    match operandError e env.addrOk ver t.v (rest.map Token.v) with
    | some (n, why, m) => ∃ u, (t :: rest)[rest.length + 1 - n]? = some u ∧
        ∀ d, (d ∈ r.diagnostics ∧ OperandDiag k d) ↔ (d = parseDiag why u ∧ why.ofOperand = true)
    | none => ∀ d ∈ r.diagnostics, ¬ OperandDiag k d := by
  obtain ⟨os, hr, ha⟩ := process_run h
  have hk : k < lineCount (tokens src) := words_lt (by rw [hw]; simp)
  have hver : ver = (carryAt {} os k).version := (carry_version env.addrOk src os hr k (Nat.le_of_lt hk) ver).1 hv
  obtain ⟨hlt, htv, -⟩ := lineTokens_words _ k t rest hw
  obtain ⟨o, ho, hpl, hf⟩ := hr.get k _ ((linesOf_get src k _).2 ⟨hk, rfl⟩)
  have hok := lineOk (readTokens_seq src) k
  rw [hlt] at hpl hok
  have hd : ∀ d, (d ∈ r.diagnostics ∧ OperandDiag k d) ↔ (d ∈ o.ctx.diag ∧ ∃ w, d.kind = .parse w ∧ w.ofOperand = true) := by
    intro d
    rw [operandDiag_iff]
    constructor
    · rintro ⟨h1, h2, w, h3, h4⟩
      exact ⟨(parse_diags hr ha k o ho d ⟨w, h3⟩).1 ⟨h1, h2⟩, w, h3, h4⟩
    · rintro ⟨h1, w, h3, h4⟩
      obtain ⟨h5, h6⟩ := (parse_diags hr ha k o ho d ⟨w, h3⟩).2 h1
      exact ⟨h5, h6, w, h3, h4⟩
  have h1 := processLine_operands (e := e) _ k t rest hok htv o hpl
  rw [← hver] at h1
  revert h1
  cases operandError e env.addrOk ver t.v (rest.map Token.v) with
  | none =>
    intro h1 d hdr hdk
    obtain ⟨h2, w, h3, h4⟩ := (hd d).1 ⟨hdr, hdk⟩
    rw [h1 d h2 w h3] at h4
    cases h4
  | some x =>
    rintro ⟨u, h2, h3⟩
    exact ⟨u, h2, fun d => (hd d).trans (h3 d)⟩

/-- The text of an error about an operand. -/
theorem operand_diag_text {e : ErrorTexts} {env : Env} {src : Bytes} {r : ProcessResult} (h : process env src = some r)
    {k : Nat} {t : Token} {rest : List Token} {ver : Nat} (hw : words (tokens src) k = t :: rest) (hv : VersionAt (tokens src) k ver)
    {n : Nat} {why : ParseWhy} {m : Bytes} (hx : operandError e env.addrOk ver t.v (rest.map Token.v) = some (n, why, m))
    (hq : why = .missingQuotes → m = b!"missing quotes") (ho : why.ofOperand = true) {d : Diag} (hl : d.l = k) (hk : d.kind = .parse why) :
    d.text e env.addrOk src = m := by
  obtain ⟨os, hr, ha⟩ := process_run h
  have hlt : k < lineCount (tokens src) := words_lt (by rw [hw]; simp)
  have hver : ver = (carryAt {} os k).version := (carry_version env.addrOk src os hr k (Nat.le_of_lt hlt) ver).1 hv
  obtain ⟨h1, htv, -⟩ := lineTokens_words _ k t rest hw
  have h2 := operandErrors_get (e := e) hr k t rest ((linesOf_get src k _).2 ⟨hlt, h1.symm⟩) htv
  rw [← hver, hx] at h2
  unfold Diag.text operandText
  rw [hl, show sourceLines (readTokens src).1 = linesOf src from rfl, h2, hk]
  show why.text m = m
  cases why <;> first | (cases ho; done) | rfl | (exact (hq rfl).symm)

theorem says_exactly {e : ErrorTexts} {env : Env} {src : Bytes} {r : ProcessResult} (h : process env src = some r)
    {k : Nat} {t : Token} {rest : List Token} {ver : Nat} (hw : words (tokens src) k = t :: rest) (hv : VersionAt (tokens src) k ver)
    (said : Nat → Bytes → Prop)
    (h1 : ∀ n why m, operandError e env.addrOk ver t.v (rest.map Token.v) = some (n, why, m) →
      ∃ i, said i m ∧ i < 1 + rest.length ∧ n = 1 + rest.length - i ∧ why.ofOperand = true ∧ (why = .missingQuotes → m = b!"missing quotes"))
    (h2 : ∀ i m, said i m → ∃ why, operandError e env.addrOk ver t.v (rest.map Token.v) = some (1 + rest.length - i, why, m)) :
    SaysExactly (fun d => d.text e env.addrOk src) r.diagnostics k (t :: rest) said := by
  have hline := line_operands (e := e) h hw hv
  cases hx : operandError e env.addrOk ver t.v (rest.map Token.v) with
  | none =>
    rw [hx] at hline
    refine ⟨fun i m hs => ?_, fun d hd hk => absurd hk (hline d hd), fun d hd _ _ hk _ => absurd hk (hline d hd)⟩
    obtain ⟨why, h3⟩ := h2 i m hs
    rw [hx] at h3; cases h3
  | some x =>
    obtain ⟨n, why, m⟩ := x
    rw [hx] at hline
    obtain ⟨u, h3, h4⟩ := hline
    obtain ⟨i, h5, h6, h7, h8, h9⟩ := h1 n why m hx
    have hi : rest.length + 1 - n = i := by omega
    rw [hi] at h3
    have hd := (h4 (parseDiag why u)).2 ⟨rfl, h8⟩
    have htext : ∀ d, d ∈ r.diagnostics → OperandDiag k d → d = parseDiag why u ∧ d.text e env.addrOk src = m := by
      intro d hdr hdk
      obtain ⟨rfl, -⟩ := (h4 d).1 ⟨hdr, hdk⟩
      exact ⟨rfl, operand_diag_text h hw hv hx h9 h8 hdk.1 rfl⟩
    refine ⟨fun i' m' hs => ?_, fun d hdr hdk => ?_, fun d hdr d' hdr' hdk hdk' => ?_⟩
    · obtain ⟨why', h10⟩ := h2 i' m' hs
      rw [hx] at h10
      cases h10
      have : i' = i := by omega
      subst this
      exact ⟨u, _, h3, hd.1, hd.2, rfl, rfl, (htext _ hd.1 hd.2).2⟩
    · obtain ⟨rfl, h10⟩ := htext d hdr hdk
      refine ⟨i, u, h3, rfl, rfl, ?_⟩
      rw [h10]; exact h5
    · rw [(htext d hdr hdk).1, (htext d' hdr' hdk').1]

/-- What is said about the operands of an instruction. -/
theorem operands_said {e : ErrorTexts} {env : Env} {src : Bytes} {r : ProcessResult} {k : Nat} {t : Token} {rest : List Token} {ver : Nat}
    {en : OpEntry} (he : opsGet t.v = some en) (h : process env src = some r) (hw : words (tokens src) k = t :: rest)
    (hv : VersionAt (tokens src) k ver)
    (harr : t.v ∈ arrayOps → ∀ x ∈ rest.map Token.v, ∀ d ∈ txnFields, d.name = x → d.array = true → d.since ≤ ver)
    (hclosed : t.v ∈ byteConstOps → ∀ x ∈ rest.map Token.v, Closed x) :
    SaysExactly (fun d => d.text e env.addrOk src) r.diagnostics k (t :: rest)
      (Blames e env.addrOk ver t.v false 1 (en.docArgs.map DocArg.operand) (rest.map Token.v)) := by
  obtain ⟨hm, hn⟩ := opsGet_mem he
  have hwordy : ∀ x ∈ rest.map Token.v, Wordy x ∧ x ≠ [34] := by
    intro x hx
    obtain ⟨u, hu, rfl⟩ := List.mem_map.1 hx
    have := mem_words.1 (hw ▸ List.mem_cons_of_mem t hu : u ∈ words (tokens src) k)
    exact wordy_token this.1 this.2.2
  have hsuit : ∀ a ∈ en.readArgs, Suits ver t.v a.type (rest.map Token.v) := by
    intro a ha
    obtain ⟨h1, h2, h3, h4, h5⟩ := read_types en hm a ha
    rw [hn] at h2 h3 h4 h5
    exact ⟨h1, h2, h3, fun h => harr (h4 h), fun h => hclosed (h5 h), hwordy⟩
  have hon := one_optional en hm
  have herr : operandError e env.addrOk ver t.v (rest.map Token.v) = walkArgs e env.addrOk ver en.readArgs false (rest.map Token.v) := by
    have hnm := opsList_names en hm
    rw [hn] at hnm
    unfold operandError
    rw [if_neg hnm.1, if_neg hnm.2.2, he]
  refine says_exactly h hw hv _ (fun n why m hx => ?_) (fun i m hb => ?_)
  · rw [herr] at hx
    obtain ⟨i, h1, h2, h3, h4⟩ := walk_blames _ _ (Nat.le_refl _) _ false 1 (Nat.le_refl _) hsuit hon n why m hx
    rw [List.length_map] at h2 h3
    refine ⟨i, h1, h2, h3, h4, ?_⟩
    rintro rfl
    exact walk_quotes _ _ _ _ _ _ hx
  · obtain ⟨why, h1⟩ := blames_walk hb (Nat.le_refl _) en.readArgs rfl hsuit hon
    rw [List.length_map] at h1
    exact ⟨why, herr.trans h1⟩

/-- **C120** (partial: for lines whose array fields are known to the version and whose byte constants end with
their closing parenthesis, see `C120_false`.)  About the operands of an instruction exactly what the signature
calls for is said, at the word it is about. -/
theorem C120_partial (e : ErrorTexts) (env : Env) (src : Bytes) (r : ProcessResult) (h : process env src = some r)
    (k : Nat) (t : Token) (rest : List Token) (ver : Nat) (hw : words (tokens src) k = t :: rest)
    (hv : VersionAt (tokens src) k ver) (hd : ∃ d ∈ docOps, d.name = t.v)
    (harr : t.v ∈ arrayOps → ∀ x ∈ rest.map Token.v, ∀ d ∈ txnFields, d.name = x → d.array = true → d.since ≤ ver)
    (hclosed : t.v ∈ byteConstOps → ∀ x ∈ rest.map Token.v, Closed x) :
    ∃ os : List Operand, (t.v ≠ b!"gitxna" → Describes t.v os) ∧
      (t.v ∉ [b!"replace", b!"extract", b!"txn", b!"gtxns", b!"gtxn"] → ∀ T active, ShowsSignature t.v os (signatureOut T t.v active)) ∧
      SaysExactly (fun d => d.text e env.addrOk src) r.diagnostics k (t :: rest)
        (Blames e env.addrOk ver t.v false 1 os (rest.map Token.v)) := by
  obtain ⟨en, he⟩ := Option.isSome_iff_exists.1 ((known_op t.v).2 hd)
  exact ⟨en.docArgs.map DocArg.operand, shown_ops he, fun hx T active => shows_signature he T hx active,
    operands_said he h hw hv harr hclosed⟩

/-- Texts to tell which library complains. -/
def sampleErrors : ErrorTexts where
  uint8 s := b!"uint8? " ++ s
  uint64 s := b!"uint64? " ++ s
  int8 s := b!"int8? " ++ s
  base32 s := b!"base32? " ++ s
  base64 s := b!"base64? " ++ s
  hex s := b!"hex? " ++ s
  string s := b!"string? " ++ s
  addr s := b!"addr? " ++ s

/-- What is said of a program: the line, the columns and the text. -/
def saidOf (src : Bytes) : List (Nat × Nat × Nat × Bytes) :=
  ((process sampleEnv src).map fun r => r.diagnostics.map fun d => (d.l, d.b, d.e, d.text sampleErrors sampleEnv.addrOk src)).getD []

/-- The second operand of `gload` is too big, and the third of `gtxna` is missing. -/
example : ((words (tokens b!"gload 1 256\ngtxna 0 Accounts") 1).map Token.v = [b!"gtxna", b!"0", b!"Accounts"] ∧
      VersionAt (tokens b!"gload 1 256\ngtxna 0 Accounts") 1 1) ∧
    (∀ d ∈ txnFields, d.name = b!"Accounts" → d.since ≤ 2) ∧
    Blames sampleErrors sampleEnv.addrOk 1 b!"gload" false 1 [⟨b!"t", b!"uint8", false, false⟩, ⟨b!"i", b!"uint8", false, false⟩]
      [b!"1", b!"256"] 2 b!"failed to parse uint8: i: uint8? 256" ∧
    (0, 8, 11, b!"failed to parse uint8: i: uint8? 256") ∈ saidOf b!"gload 1 256\ngtxna 0 Accounts" ∧
    (1, 8, 16, b!"missing arg: i") ∈ saidOf b!"gload 1 256\ngtxna 0 Accounts" := by
  refine ⟨⟨by decide +kernel, ?_⟩, by decide +kernel, ?_, by decide +kernel, by decide +kernel⟩
  · refine .keep 0 1 .first fun n hn => ?_
    obtain ⟨s, rest, h1, -⟩ := hn
    have h2 : ((words (tokens b!"gload 1 256\ngtxna 0 Accounts") 0).map Token.v).head? = some b!"gload" := by decide +kernel
    rw [h1] at h2
    revert h2; simp
  · refine .next false 1 _ _ [b!"1"] _ _ _ rfl (.byte _ 1 ((C11_uint8 _ _).1 (by decide))) ?_
    refine .here false 2 _ _ _ 0 _ ?_ (.byte _ _ rfl)
    intro g rest hg hk
    generalize hkind : Operand.kind _ = kd at hk
    cases hk with
    | byte x n h =>
      injection hg with hx _
      have := (C11_uint8 _ _).2 h
      rw [← hx] at this
      revert this
      rw [show readUint8 b!"256" = none by decide +kernel]
      simp
    | field k names x f hk h =>
      have : ∀ p ∈ fieldKinds, p.1 ≠ b!"uint8" := by decide +kernel
      exact this _ hk hkind.symm
    | _ => exact absurd hkind (by decide)

/-- A field that is too new, one that is none, and constants that cannot be decoded. -/
example : saidOf b!"#pragma version 5\ntxn Foo\ntxn StateProofPK\nbyte base64(AA\nbyte b32 !\nbyte\nframe_dig 200" =
    [(1, 4, 7, b!"failed to parse txn field: f: failed to parse txn field: uint8? Foo"),
     (2, 4, 16, b!"failed to parse txn field: f: not available in this version (need >= 6, got: 5)"),
     (3, 5, 14, b!"byte base64 arg lacks close paren"),
     (4, 9, 10, b!"base32? !"),
     (5, 0, 4, b!"missing arg: value"),
     (6, 0, 9, b!"opcode requires version >= 8 (current: 5)"),
     (6, 10, 13, b!"failed to parse int8: index: int8? 200")] := by decide +kernel

/-- **C120 is false of the code**: reading goes on behind a field that the version does not have, and behind a
constant with text behind its closing parenthesis, and only what is wrong further on is said. -/
theorem C120_false :
    saidOf b!"#pragma version 2\ntxna Logs x" = [(1, 10, 11, b!"failed to parse uint8: i: uint8? x")] ∧
    (¬ ∃ f, IsArrayField 2 b!"Logs" f) ∧
    saidOf b!"bytecblock base64(AA==)xyz 0xZ" = [(0, 27, 30, b!"hex? Z")] ∧
    ¬ ∃ v, IsBytes [b!"base64(AA==)xyz"] v := by
  refine ⟨by decide +kernel, ?_, by decide +kernel, ?_⟩
  · rintro ⟨f, ⟨d, hd, hn, -, hs⟩ | ⟨hno, -⟩⟩
    · have : ∀ d ∈ txnFields, d.name = b!"Logs" → ¬ d.since ≤ 2 := by decide +kernel
      exact this d (List.mem_of_getElem? hd) hn hs
    · have : ∃ d ∈ txnFields, d.name = b!"Logs" := by decide +kernel
      obtain ⟨d, h1, h2⟩ := this
      exact hno d h1 h2
  · rintro ⟨v, h⟩
    generalize hws : [b!"base64(AA==)xyz"] = ws at h
    have hlast : ∀ s : Bytes, b!"base64(AA==)xyz" ≠ s ++ [41] := by
      intro s hs
      have := congrArg List.getLast? hs
      rw [List.getLast?_concat] at this
      exact absurd this (by decide)
    cases h with
    | hex s => injection hws with h1; exact absurd (congrArg List.head? h1) (by simp)
    | base32 p s => injection hws with h1; exact hlast _ h1
    | base64 p s => injection hws with h1; exact hlast _ h1
    | base32' => simp at hws
    | base64' => simp at hws
    | string s => injection hws with h1; exact absurd (congrArg List.head? h1) (by simp)

/-- **C120**, of lines with `#pragma`. -/
theorem C120_pragma (e : ErrorTexts) (env : Env) (src : Bytes) (r : ProcessResult) (h : process env src = some r)
    (k : Nat) (t : Token) (rest : List Token) (hw : words (tokens src) k = t :: rest) (hp : t.v = b!"#pragma") :
    SaysExactly (fun d => d.text e env.addrOk src) r.diagnostics k (t :: rest) (PragmaBlames e (rest.map Token.v)) := by
  obtain ⟨os, hr, ha⟩ := process_run h
  have hlt : k < lineCount (tokens src) := words_lt (by rw [hw]; simp)
  have hv := (carry_version env.addrOk src os hr k (Nat.le_of_lt hlt) _).2 rfl
  have herr : ∀ v, operandError e env.addrOk v t.v (rest.map Token.v) = pragmaError e (rest.map Token.v) := by
    intro v
    unfold operandError
    rw [if_neg (by rw [hp]; decide), if_pos hp]
  refine says_exactly h hw hv _ (fun n why m hx => ?_) (fun i m hb => ?_)
  · rw [herr] at hx
    match hrest : rest, hx with
    | [], hx =>
      cases hx
      exact ⟨0, .name, by simp, rfl, rfl, by simp⟩
    | [w], hx =>
      simp only [List.map_cons, List.map_nil, pragmaError] at hx
      split at hx
      · rename_i hw
        cases hx
        refine ⟨1, ?_, by simp, rfl, rfl, by simp⟩
        simp only [List.map_cons, List.map_nil, hw]
        exact .value
      · cases hx
    | w :: x :: ws, hx =>
      simp only [List.map_cons, pragmaError] at hx
      split at hx
      · rename_i hw
        cases hx
        refine ⟨2, ?_, by simp; omega, by simp; omega, rfl, by simp⟩
        simp only [List.map_cons, hw.1]
        refine .number _ _ fun n hn => ?_
        have := (C11_int_literal x.v n).2 hn
        rw [hw.2] at this; cases this
      · cases hx
  · rw [herr]
    generalize hws : rest.map Token.v = ws at hb
    have hlen : rest.length = ws.length := by rw [← hws, List.length_map]
    rw [hlen]
    cases hb with
    | name => exact ⟨_, rfl⟩
    | value => exact ⟨_, rfl⟩
    | number x ws hx =>
      refine ⟨.badUint64, ?_⟩
      have : readInt x = none := by
        cases hr : readInt x with
        | none => rfl
        | some n => exact absurd ((C11_int_literal x n).1 hr) (hx n)
      simp only [pragmaError, true_and, if_pos this, List.length_cons]
      rw [show 1 + (ws.length + 1 + 1) - 2 = ws.length + 1 by omega]

/-- The pragma has no version, or one that is no number. -/
example : saidOf b!"#pragma\n#pragma version\n#pragma version x" =
    [(0, 0, 7, b!"missing arg: name"), (1, 8, 15, b!"missing arg: version value"),
     (2, 16, 17, b!"failed to parse uint64: version value: uint64? x")] := by decide +kernel

/-- Nothing is said about operands on other lines. -/
theorem C120_elsewhere (env : Env) (src : Bytes) (r : ProcessResult) (h : process env src = some r) (k : Nat) (d : Diag)
    (hd : d ∈ r.diagnostics) (hk : OperandDiag k d) :
    ∃ t rest, words (tokens src) k = t :: rest ∧ (t.v = b!"#pragma" ∨ ∃ d ∈ docOps, d.name = t.v) := by
  obtain ⟨os, hr, ha⟩ := process_run h
  obtain ⟨hl, w, hdk, ho⟩ := (operandDiag_iff k d).1 hk
  obtain ⟨lds, hlint, -, hdg, -⟩ := assemble_eq ha
  have h1 := hd
  rw [hdg] at h1
  simp only [List.mem_append, List.mem_flatMap] at h1
  rcases h1 with (h1 | ⟨o, ho', h1⟩) | h1
  · obtain ⟨x, -, rfl⟩ := List.mem_map.1 h1
    cases hdk
  · obtain ⟨j, hj⟩ := List.mem_iff_getElem?.1 ho'
    have hjl : j < lineCount (readTokens src).1 := by
      rw [← linesOf_length, ← hr.length]; exact (List.getElem?_eq_some_iff.1 hj).1
    obtain ⟨o', h2, hpl, hf⟩ := hr.get j _ ((linesOf_get src j _).2 ⟨hjl, rfl⟩)
    rw [hj] at h2
    cases h2
    obtain ⟨u, hu, h3, -⟩ := hf.diagPos d h1
    have hjk : j = k := by
      rw [← hl, h3]
      exact ((lineOk (readTokens_seq src) j).mem u hu).1.symm
    subst hjk
    cases hw : words (tokens src) j with
    | nil =>
      exfalso
      have hcom : ∀ c ∈ lineTokens (readTokens src).1 j, c.t = .comment := by
        intro c hc
        unfold lineTokens at hc
        rw [if_pos hw] at hc
        exact (mem_comments.1 hc).2.2
      cases h4 : lineTokens (readTokens src).1 j with
      | nil => rw [h4] at hu; cases hu
      | cons c cs =>
        rw [h4] at hpl
        unfold processLine at hpl
        simp only [if_pos (hcom c (by rw [h4]; simp))] at hpl
        split at hpl <;> (injection hpl with hpl; subst hpl; cases h1)
    | cons t rest =>
      refine ⟨t, rest, rfl, ?_⟩
      have hv := (carry_version env.addrOk src os hr j (Nat.le_of_lt hjl) _).2 rfl
      have h4 := line_operands (e := ⟨id, id, id, id, id, id, id, id⟩) h hw hv
      by_cases hc : t.v.getLast? = some chColon
      · simp only [operandError, if_pos hc] at h4
        exact absurd hk (h4 d hd)
      by_cases hp : t.v = b!"#pragma"
      · exact .inl hp
      cases he : opsGet t.v with
      | some en => exact .inr ((known_op t.v).1 (by rw [he]; rfl))
      | none =>
        simp only [operandError, if_neg hc, if_neg hp, he] at h4
        exact absurd hk (h4 d hd)
  · rw [lintDiags_eq _ _ _ hlint] at h1
    obtain ⟨e, -, rfl⟩ := List.mem_map.1 h1
    cases hdk

end Teal.Props
