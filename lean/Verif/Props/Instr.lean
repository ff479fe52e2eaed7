import Verif.Lemmas.Instr
import Verif.Lemmas.Surplus
import Verif.Props.Process2

/-!
# Property C55: opcodes and their operands
-/

namespace Teal.Props
open Spec

theorem wordy_token {src : Bytes} {t : Token} (h : t ∈ tokens src) (hv : t.t = .value) : Wordy t.v ∧ t.v ≠ [34] := by
  rcases (C03_shapes src t h).1 hv with ⟨h1, h2, h3⟩ | ⟨body, h1⟩
  · refine ⟨.inl fun x hx => ⟨?_, ?_⟩, ?_⟩
    · rintro rfl; exact h3 _ hx (by decide)
    · rintro rfl; exact h3 _ hx (by decide)
    · intro he; rw [he] at h2; exact h2 rfl
  · refine ⟨.inr ⟨body, h1⟩, ?_⟩
    rw [h1]
    intro h
    have := congrArg List.length h
    simp at this

theorem instr_not_empty {addrOk : Bytes → Bool} {ver : Nat} {w : Bytes} {ws : List Bytes} {o : Op}
    (h : Instr addrOk ver w ws o) : o ≠ .empty := by
  cases h <;> simp

/-- A parse diagnostic on line `k` comes from reading line `k`. -/
theorem parse_diags {env : Env} {src : Bytes} {r : ProcessResult} {os : List LineOut}
    (hr : Run env.addrOk {} (linesOf src) os)
    (ha : assemble env (readTokens src).2 (linesOf src) os = some r) (k : Nat) (o : LineOut) (ho : os[k]? = some o)
    (d : Diag) (hd : ∃ why, d.kind = .parse why) : (d ∈ r.diagnostics ∧ d.l = k) ↔ d ∈ o.ctx.diag := by
  obtain ⟨why, hd⟩ := hd
  obtain ⟨lds, hl, hlist, hdg, -⟩ := assemble_eq ha
  have hpos : ∀ (j : Nat) (o : LineOut), os[j]? = some o → ∀ d ∈ o.ctx.diag, d.l = j := by
    intro j o ho d hd
    have hj : j < (linesOf src).length := by
      rw [← hr.length]; exact (List.getElem?_eq_some_iff.1 ho).1
    have hline : (linesOf src)[j]? = some (lineTokens (readTokens src).1 j) :=
      (linesOf_get src j _).2 ⟨by rw [← linesOf_length]; exact hj, rfl⟩
    obtain ⟨o', h1, -, hf⟩ := hr.get j _ hline
    rw [ho] at h1
    cases h1
    obtain ⟨t, ht, h1, -⟩ := hf.diagPos d hd
    rw [h1]
    exact ((lineOk (readTokens_seq src) j).mem t ht).1
  constructor
  · rintro ⟨h1, h2⟩
    rw [hdg] at h1
    simp only [List.mem_append, List.mem_flatMap] at h1
    rcases h1 with (h1 | ⟨o', ho', h1⟩) | h1
    · obtain ⟨x, -, rfl⟩ := List.mem_map.1 h1
      cases hd
    · obtain ⟨j, hj⟩ := List.mem_iff_getElem?.1 ho'
      have := hpos j o' hj d h1
      rw [h2] at this
      subst this
      rw [ho] at hj
      cases hj
      exact h1
    · rw [lintDiags_eq _ _ _ hl] at h1
      obtain ⟨e, -, rfl⟩ := List.mem_map.1 h1
      cases hd
  · intro h
    refine ⟨?_, hpos k o ho d h⟩
    rw [hdg]
    exact List.mem_append_left _ (List.mem_append_right _ (List.mem_flatMap.2 ⟨o, List.mem_of_getElem? ho, h⟩))

/-- What the reading of operands accepts, a line with them is accepted with. -/
theorem operands_of_reading (env : Env) (src : Bytes) (r : ProcessResult) (h : process env src = some r)
    (k : Nat) (t : Token) (rest : List Token) (ver : Nat) (hw : words (tokens src) k = t :: rest)
    (hv : VersionAt (tokens src) k ver) (hl : t.v.getLast? ≠ some chColon) (hp : t.v ≠ b!"#pragma") (P : Op → Prop)
    (hunk : opsGet t.v = none → ∀ o, ¬ P o)
    (hiff : ∀ e, opsGet t.v = some e → (∀ x ∈ rest.map Token.v, Wordy x ∧ x ≠ [34]) →
      ∀ o, evalShape env.addrOk e.shape ver (rest.map Token.v) = some (o, []) ↔ P o) :
    ((∀ d ∈ r.diagnostics, d.l = k → ∀ why, d.kind ≠ .parse why) ↔ ∃ o, P o) ∧
    (NoSurplus r → ∀ o, o ≠ .empty → (r.listing[k]? = some o ↔ P o)) := by
  obtain ⟨os, hr, ha⟩ := process_run h
  have hk : k < lineCount (tokens src) := words_lt (by rw [hw]; simp)
  have hver : ver = (carryAt {} os k).version := (carry_version env.addrOk src os hr k (Nat.le_of_lt hk) ver).1 hv
  have hwordy : ∀ x ∈ rest.map Token.v, Wordy x ∧ x ≠ [34] := by
    intro x hx
    obtain ⟨u, hu, rfl⟩ := List.mem_map.1 hx
    have := mem_words.1 (hw ▸ List.mem_cons_of_mem t hu : u ∈ words (tokens src) k)
    exact wordy_token this.1 this.2.2
  obtain ⟨hlt, htv, -⟩ := lineTokens_words _ k t rest hw
  obtain ⟨o, ho, hpl, hf⟩ := hr.get k _ ((linesOf_get src k _).2 ⟨hk, rfl⟩)
  have hdiag : (∀ d ∈ r.diagnostics, d.l = k → ∀ why, d.kind ≠ .parse why) ↔
      ∀ d ∈ o.ctx.diag, ∀ why, d.kind ≠ .parse why := by
    constructor
    · intro h1 d hd why hk
      obtain ⟨h2, h3⟩ := (parse_diags hr ha k o ho d ⟨why, hk⟩).2 hd
      exact h1 d h2 h3 why hk
    · intro h1 d hd hdk why hk
      exact h1 d ((parse_diags hr ha k o ho d ⟨why, hk⟩).1 ⟨hd, hdk⟩) why hk
  have hlisting : NoSurplus r → r.listing[k]? = o.ctx.ops.head? := by
    intro hs
    obtain ⟨lds, -, hlist, -⟩ := assemble_eq ha
    rw [hlist]
    exact one_op (noSurplus_ops hr (noSurplus_lines ha hs)) k o ho
  rw [hdiag]
  have hok := lineOk (readTokens_seq src) k
  rw [hlt] at hpl hok
  have hops : o.ctx.ops = opsOf env.addrOk ver (t.v :: rest.map Token.v) := by
    rw [hver, processLine_ops env.addrOk _ k _ hok o hpl,
      lineWords_values fun x hx => (mem_words.1 (hw ▸ hx : x ∈ words (tokens src) k)).2.2]
    rfl
  rw [opsOf, if_neg hl, if_neg hp] at hops
  cases he : opsGet t.v with
  | none =>
    rw [he] at hops
    dsimp only at hops
    have hno : ∀ o, ¬ P o := hunk he
    refine ⟨⟨fun hd => ?_, fun ⟨o, ho⟩ => absurd ho (hno o)⟩, fun hs o' hne => ⟨fun h1 => ?_, fun hi => absurd hi (hno o')⟩⟩
    · exfalso
      unfold processLine at hpl
      have hne := (hok.shape.resolve_left (by rintro ⟨c, h1, h2⟩; injection h1 with h1; rw [← h1, htv] at h2; cases h2) t (by simp)).2
      simp only [if_neg (show ¬ t.t = .comment by rw [htv]; decide), if_neg hl, if_neg hne, if_neg hp, he,
        Option.map_eq_some_iff] at hpl
      obtain ⟨c, h1, rfl⟩ := hpl
      injection h1 with h1
      exact hd (parseDiag (.unknownOpcode t.v) t) (by rw [← h1]; simp [LineCtx.curr, parseDiag]) _ rfl
    · rw [hlisting hs, hops] at h1
      injection h1 with h1
      exact absurd h1.symm hne
  | some e =>
    have hend := processLine_instr env.addrOk _ k t rest e hok htv he o hpl
    rw [← hver] at hend
    have hiff := hiff e he hwordy
    have havail : ∀ d ∈ availDiags (carryAt {} os k).mode (e.minVersion (carryAt {} os k).mode) ver t, ∀ why, d.kind ≠ .parse why := by
      intro d hd why
      unfold availDiags at hd
      rcases List.mem_append.1 hd with hd | hd <;> (split at hd <;> simp at hd <;> (subst hd; simp))
    cases hev : evalShape env.addrOk e.shape ver (rest.map Token.v) with
    | none =>
      rw [hev] at hend
      obtain ⟨h1, why, u, -, -, h2⟩ := hend
      have hno : ∀ o', ¬ P o' := by
        intro o' hi
        rw [← hiff, hev] at hi; cases hi
      refine ⟨⟨fun hd => ?_, fun ⟨o, ho⟩ => absurd ho (hno o)⟩, fun hs o' hne => ⟨fun h3 => ?_, fun hi => absurd hi (hno o')⟩⟩
      · exact absurd rfl (hd (parseDiag why u) (by rw [h2]; simp) why)
      · rw [hlisting hs, h1] at h3
        injection h3 with h3
        exact absurd h3.symm hne
    | some p =>
      obtain ⟨o', left⟩ := p
      rw [hev] at hend
      cases left with
      | nil =>
        obtain ⟨h1, h2⟩ := hend
        have hi := (hiff o').1 hev
        refine ⟨⟨fun _ => ⟨o', hi⟩, fun _ => by rw [h2]; exact havail⟩, fun hs o'' _ => ?_⟩
        rw [hlisting hs, h1, ← hiff, hev]
        simp
      | cons x left =>
        obtain ⟨h1, u, hu, h2⟩ := hend
        have hno : ∀ o', ¬ P o' := by
          intro o' hi
          rw [← hiff, hev] at hi; cases hi
        refine ⟨⟨fun hd => ?_, fun ⟨o, ho⟩ => absurd ho (hno o)⟩, fun hs o'' hne => ?_⟩
        · exact absurd rfl (hd (parseDiag .tooManyValues u) (by rw [h2]; simp) _)
        · obtain ⟨lds, -, -, hdg, -⟩ := assemble_eq ha
          refine absurd rfl (hs (parseDiag .tooManyValues u) ?_)
          exact ((parse_diags hr ha k o ho _ ⟨_, rfl⟩).2 (by rw [h2]; simp)).1

/-- **C55** (partial: for lines that are `Regular`, see `C55_false`.)  A line whose first word is
not a label or a pragma is read without complaint exactly if its words make an instruction of the
reference at the version in force; and then, if no line has surplus words, that instruction is
what the listing has for the line. -/
theorem C55_operands_partial (env : Env) (src : Bytes) (r : ProcessResult) (h : process env src = some r)
    (k : Nat) (t : Token) (rest : List Token) (ver : Nat) (hw : words (tokens src) k = t :: rest)
    (hv : VersionAt (tokens src) k ver) (hl : t.v.getLast? ≠ some chColon) (hp : t.v ≠ b!"#pragma")
    (hreg : Regular ver t.v (rest.map Token.v)) :
    ((∀ d ∈ r.diagnostics, d.l = k → ∀ why, d.kind ≠ .parse why) ↔
      ∃ o, Instr env.addrOk ver t.v (rest.map Token.v) o) ∧
    (NoSurplus r → ∀ o, o ≠ .empty →
      (r.listing[k]? = some o ↔ Instr env.addrOk ver t.v (rest.map Token.v) o)) :=
  operands_of_reading env src r h k t rest ver hw hv hl hp _
    (fun he o hi => by obtain ⟨e, h1⟩ := instr_known hi; rw [he] at h1; cases h1)
    (fun e he hwordy o => ⟨instr_of_eval he hwordy hreg, eval_of_instr he hreg.group⟩)

/-- The line `gload 1 2`. -/
example : Regular 1 b!"gload" [b!"1", b!"2"] ∧ Instr (fun _ => true) 1 b!"gload" [b!"1", b!"2"] (.u8u8 .gload 1 2) ∧
    ∃ r, process sampleEnv b!"gload 1 2" = some r ∧ r.listing = [.u8u8 .gload 1 2] ∧
      words (tokens b!"gload 1 2") 0 ≠ [] := by
  refine ⟨⟨by decide, by decide, by decide, fun h => absurd h (by decide)⟩, ?_, ?_⟩
  · exact .byteByteOp _ _ _ _ _ _ (by decide) ((C11_uint8 _ _).1 (by decide)) ((C11_uint8 _ _).1 (by decide))
  · exact ⟨_, rfl, by decide +kernel, by decide +kernel⟩

theorem not_key {α} {l : List (Bytes × α)} {w : Bytes} {k : α} (h : (w, k) ∈ l) (hn : w ∉ l.map Prod.fst) : False :=
  hn (List.mem_map.2 ⟨_, h, rfl⟩)

theorem txn_fee_indexed (addrOk : Bytes → Bool) (ver : Nat) (o : Op) : ¬ Instr addrOk ver b!"txn" [b!"Fee", b!"0"] o := by
  intro h
  generalize hw : b!"txn" = w at h
  generalize hws : [b!"Fee", b!"0"] = ws at h
  cases h with
  | txnAt _ x y k f i h hx hy =>
    injection hws with hx' _
    subst hx'
    have hn : ∀ d ∈ txnFields, d.name = b!"Fee" → d.array = false := by decide +kernel
    have he : ∃ d ∈ txnFields, d.name = b!"Fee" := by decide +kernel
    rcases hx with ⟨d, hd, hn', ha, -⟩ | ⟨hno, -⟩
    · rw [hn d (List.mem_of_getElem? hd) hn'] at ha
      cases ha
    · obtain ⟨d, h1, h2⟩ := he
      exact hno d h1 h2
  | byteByteOp _ x y k m n h => subst hw; exact not_key h (by decide)
  | arrayAt _ x y k f i h => subst hw; exact not_key h (by decide)
  | group _ x y k t f h => subst hw; exact not_key h (by decide)
  | groupArray _ x y k t f h => subst hw; exact not_key h (by decide)
  | _ => first | (exfalso; exact absurd hws (by simp)) | (exfalso; exact absurd hw (by decide))

/-- **C55 is false of the code**: `txn Fee 0` indexes a field that is no array, and is read without
complaint. -/
theorem C55_false : ∃ r, process sampleEnv b!"txn Fee 0" = some r ∧
    (words (tokens b!"txn Fee 0") 0).map Token.v = [b!"txn", b!"Fee", b!"0"] ∧
    (∀ d ∈ r.diagnostics, ∀ why, d.kind ≠ .parse why) ∧
    ∀ ver o, ¬ Instr sampleEnv.addrOk ver b!"txn" [b!"Fee", b!"0"] o := by
  have h1 : (process sampleEnv b!"txn Fee 0").isSome = true := by decide +kernel
  have h2 : ∀ d ∈ ((process sampleEnv b!"txn Fee 0").map (·.diagnostics)).getD [],
      (match d.kind with | .parse _ => false | _ => true) = true := by decide +kernel
  obtain ⟨r, hr⟩ := Option.isSome_iff_exists.1 h1
  rw [hr] at h2
  refine ⟨r, hr, by decide +kernel, ?_, fun ver o => txn_fee_indexed _ ver o⟩
  intro d hd why hk
  have := h2 d hd
  rw [hk] at this
  cases this

/-- **C55 is false of the code**, further: the index of a transaction is cut to eight bits by
`gitxna`, array fields are known to every version, and text behind a closing parenthesis is
dropped. -/
theorem C55_false_more :
    (process sampleEnv b!"#pragma version 7\ngitxna 300 Logs 0").map (·.listing) =
      some [.pragma 7, .groupFieldIdx .gitxna 44 58 0] ∧
    ((process sampleEnv b!"#pragma version 2\ntxna Logs 0").map fun r => (r.listing, r.diagnostics)) =
      some ([.pragma 2, .fieldIdx .txna 58 0], []) ∧
    ((process sampleEnv b!"byte base64(AA==)xyz").map fun r => (r.listing, r.diagnostics)) =
      some ([.byte [0]], []) := by decide +kernel

/-! ## C17 -/

/-- **C17** (partial: see `C17_false`.)  Processing returns a result if no line has more operands
than its opcode can have. -/
theorem C17_returns_partial (env : Env) (src : Bytes)
    (h : ∀ k t rest, words (tokens src) k = t :: rest → (∃ d ∈ docOps, d.name = t.v) →
      (operandLimit t.v).Allows (rest.map Token.v)) : ∃ r, process env src = some r := by
  obtain ⟨os, hr, he⟩ := process_eq env src
  rw [he]
  refine process_some_of_noSurplus env src os hr ?_
  intro d hd hk
  obtain ⟨o, ho, hd⟩ := List.mem_flatMap.1 hd
  obtain ⟨k, hok⟩ := List.mem_iff_getElem?.1 ho
  have hlt : k < lineCount (tokens src) := by
    rw [← linesOf_length, ← hr.length]; exact (List.getElem?_eq_some_iff.1 hok).1
  obtain ⟨o', h1, hpl, hf⟩ := hr.get k _ ((linesOf_get src k _).2 ⟨hlt, rfl⟩)
  rw [hok] at h1
  cases h1
  rcases hf.ops with ⟨op, -, h2⟩ | ⟨op, t, h2, -, -⟩
  · exact h2 d hd hk
  · have h3 := processLine_ops env.addrOk _ k _ (lineOk (readTokens_seq src) k) o hpl
    rw [lineWords_eq, h2] at h3
    cases hw : words (tokens src) k with
    | nil => rw [hw] at h3; simp [opsOf] at h3
    | cons t rest =>
      rw [hw, List.map_cons, opsOf] at h3
      split at h3
      · split at h3 <;> simp at h3
      split at h3
      · split at h3 <;> simp at h3
      split at h3
      · rename_i e he
        obtain ⟨h4, h5⟩ := opsGet_mem he
        obtain ⟨d', hd', hn⟩ := docOps_names e h4
        have hal := h k t rest hw ⟨d', hd', hn.trans h5⟩
        rw [← h5, limit_rows e h4] at hal
        generalize hev : evalShape env.addrOk e.shape (carryAt {} os k).version (rest.map Token.v) = ev at h3
        match ev with
        | none => simp [readOps] at h3
        | some (x, []) => simp [readOps] at h3
        | some (x, y :: left) => exact eval_left hev (by simp) hal
      · simp at h3

/-- Two lines: one with all the operands its opcode can have, one with an unknown opcode. -/
example : ∀ k t rest, words (tokens b!"byte base64 AA==\nfoo 1 2 3") k = t :: rest → (∃ d ∈ docOps, d.name = t.v) →
    (operandLimit t.v).Allows (rest.map Token.v) := by
  intro k t rest hw hd
  have hlt := words_lt (src := b!"byte base64 AA==\nfoo 1 2 3") (k := k) (by rw [hw]; simp)
  have hc : lineCount (tokens b!"byte base64 AA==\nfoo 1 2 3") = 2 := by decide +kernel
  rw [hc] at hlt
  have h0 : (words (tokens b!"byte base64 AA==\nfoo 1 2 3") 0).map Token.v = [b!"byte", b!"base64", b!"AA=="] := by decide +kernel
  have h1 : (words (tokens b!"byte base64 AA==\nfoo 1 2 3") 1).map Token.v = [b!"foo", b!"1", b!"2", b!"3"] := by decide +kernel
  match k, hlt with
  | 0, _ =>
    rw [hw] at h0
    injection h0 with h0 h0'
    rw [h0, h0']
    exact .inr ⟨rfl, _, rfl, by decide⟩
  | 1, _ =>
    rw [hw] at h1
    injection h1 with h1 h1'
    rw [h1] at hd
    have hno : ¬ ∃ d ∈ docOps, d.name = b!"foo" := by decide +kernel
    exact absurd hd hno

/-! ## C14 -/

/-- **C14** The hexadecimal decoder accepts exactly the hexadecimal texts, with their bytes. -/
theorem C14_hex_exact (s bs : Bytes) : hexDecode s = some bs ↔ HexOf s bs := hexDecode_iff s bs

/-- **C14** The base64 decoder accepts exactly the base64 texts, with their bytes, as far as words of
a source text go: these have no line breaks in them unless they are in quotes. -/
theorem C14_base64_exact (s bs : Bytes)
    (hs : (∀ x ∈ s, x ≠ 13 ∧ x ≠ 10) ∨ ∃ body, s = 34 :: (body ++ [34])) : b64Decode s = some bs ↔ Base64Of s bs :=
  b64Decode_iff hs bs

end Teal.Props
