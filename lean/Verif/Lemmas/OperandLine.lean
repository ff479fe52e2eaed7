import Verif.Lemmas.OperandWalk

/-!
# Lemmas: the errors about the operands of a line
-/

namespace Teal

open Spec P Props

variable {e : ErrorTexts} {addrOk : Bytes → Bool}

/-- Each operand of the table has a name. -/
theorem named_args : ∀ en ∈ opsList,
    (((operandNames.find? fun p => p.1 == en.name).map (·.2)).getD []).length = en.shape.args.length := by decide +kernel

theorem one_optional : ∀ en ∈ opsList, oneOptional false en.readArgs = true := by decide +kernel

theorem read_types : ∀ en ∈ opsList, ∀ a ∈ en.readArgs, a.type ≠ .field (.group .txn) ∧ (a.type = .constInt → en.name = b!"int") ∧
    (a.type = .uint64 → en.name ≠ b!"int") ∧ (a.type = .field (.txn .txna) → en.name ∈ arrayOps) ∧
    (a.type = .bytes → en.name ∈ byteConstOps) := by decide +kernel

theorem walks_entry {en : OpEntry} (h : en ∈ opsList) : Walks e addrOk (P.parseShape addrOk en.shape) en.readArgs :=
  walks_shape en.shape _ (named_args en h)

theorem walk_quotes : ∀ (ws : List Bytes) (v : Nat) (as : List DocArg) (b : Bool) (n : Nat) (m : Bytes),
    walkArgs e addrOk v as b ws = some (n, .missingQuotes, m) → m = b!"missing quotes" := by
  intro ws
  induction ws with
  | nil =>
    intro v as b n m h
    cases as with
    | nil => cases b <;> cases h
    | cons a as =>
      unfold walkArgs at h
      split at h <;> cases h
  | cons x ws ih =>
    intro v as b n m h
    cases b with
    | true =>
      cases as <;> exact ih v _ false n m h
    | false =>
      cases as with
      | nil => cases h
      | cons a as =>
        unfold walkArgs at h
        cases ha : argError e addrOk v a.name a.type x ws with
        | none => rw [ha] at h; exact ih _ _ _ _ _ h
        | some y =>
          rw [ha] at h
          cases h
          revert ha
          unfold argError
          cases a.type with
          | bytes =>
            dsimp only
            unfold bytesError
            dsimp only
            repeat' split
            all_goals (intro h; cases h)
          | field r =>
            dsimp only
            cases readerError e r v x <;> intro h <;> cases h
          | _ =>
            dsimp only
            try split
            all_goals (intro h; first | (cases h; rfl) | cases h)

/-- How the reading of an instruction ends, as far as its operands are concerned. -/
def OperandEnd (ts : List Token) (diag : List Diag) (d : LineCtx) : Option (Nat × ParseWhy × Bytes) → Prop
  | some (n, why, _) => ∃ u, ts[ts.length - n]? = some u ∧ d.diag = diag ++ [parseDiag why u]
  | none => ∃ l, d.diag = diag ++ l ∧ ∀ x ∈ l, x.kind = .parse .tooManyValues

theorem parseOp_operands (en : OpEntry) (hen : en ∈ opsList) (c : LineCtx) (hne : c.ts ≠ [])
    (htext : ∀ t ∈ c.ts, t.v ≠ []) (hi : c.i = 1) (d : LineCtx) (hd : recovered (parseOp addrOk en c) = some d) :
    OperandEnd c.ts c.diag d (walkArgs e addrOk c.version en.readArgs false ((c.ts.drop 1).map Token.v)) := by
  have hm : Mid c := ⟨by omega, by omega, hne, htext⟩
  have h := walks_entry (e := e) (addrOk := addrOk) hen c hm
  have hl : c.left = (c.ts.drop 1).map Token.v := by rw [← hi]; rfl
  rw [← hl]
  unfold parseOp at hd
  rw [P.bind_apply] at hd
  revert h
  cases walkArgs e addrOk c.version en.readArgs false c.left with
  | some x =>
    obtain ⟨n, why, m⟩ := x
    rintro ⟨d', u, h1, h2, h3⟩
    rw [h1] at hd
    injection hd with hd
    subst hd
    exact ⟨u, h2, h3⟩
  | none =>
    rintro ⟨a, d', h1, h2⟩
    rw [h1] at hd
    simp only at hd
    by_cases hmore : d'.i < d'.ts.length
    · simp only [P.bind_apply, P.hasMore, P.scan, hmore, decide_true, if_true, if_pos (Nat.le_of_lt hmore),
        Nat.succ_le_of_lt hmore] at hd
      injection hd with hd
      subst hd
      refine ⟨[parseDiag .tooManyValues (LineCtx.curr { d' with i := d'.i + 1 })], ?_, ?_⟩
      · show d'.diag ++ _ = _
        rw [h2]; rfl
      · intro x hx
        rw [List.mem_singleton.1 hx]; rfl
    · simp only [P.bind_apply, P.hasMore, hmore, decide_false] at hd
      injection hd with hd
      subst hd
      exact ⟨[], by rw [h2, List.append_nil], by simp⟩

theorem avail_kinds (mode : ProgramMode) (min v : Nat) (t : Token) : ∀ d ∈ availDiags mode min v t, ∀ why, d.kind ≠ .parse why := by
  intro d hd why
  unfold availDiags at hd
  rcases List.mem_append.1 hd with hd | hd
  · split at hd
    · rw [List.mem_singleton.1 hd]; simp
    · cases hd
  · split at hd
    · rw [List.mem_singleton.1 hd]; simp
    · cases hd

theorem pragma_operands (curr : Token) (rest : List Token) (v : Nat) (d : LineCtx)
    (hd : recovered (P.opPragma { ts := curr :: rest, i := 1, version := v }) = some d) :
    match pragmaError e (rest.map Token.v) with
    | some (n, why, _) => ∃ u, (curr :: rest)[rest.length + 1 - n]? = some u ∧ d.diag = [parseDiag why u]
    | none => ∀ x ∈ d.diag, ∃ why, x.kind = .parse why ∧ why.ofOperand = false := by
  cases rest with
  | nil =>
    injection hd with hd
    subst hd
    exact ⟨curr, rfl, rfl⟩
  | cons w rest =>
    by_cases hw : w.v = b!"version"
    · cases rest with
      | nil =>
        simp [P.opPragma, P.mustReadPragma, P.bind_apply, P.addMcr, P.mustRead, P.mustReadArg, P.scan,
          P.text, LineCtx.text, LineCtx.curr, hw, P.mustReadInt, P.failPrev, P.failToken, LineCtx.prev,
          P.pure_apply, parseDiag, recovered] at hd
        simp only [List.map_cons, List.map_nil, pragmaError, if_pos hw]
        exact ⟨w, rfl, by rw [← hd]; rfl⟩
      | cons n more =>
        cases hn : readInt n.v with
        | none =>
          simp [P.opPragma, P.mustReadPragma, P.bind_apply, P.addMcr, P.mustRead, P.mustReadArg, P.scan,
            P.text, LineCtx.text, LineCtx.curr, hw, P.mustReadInt, P.failToken,
            P.pure_apply, parseDiag, P.parseUint64, P.orFail, hn, P.failCurr, recovered] at hd
          simp only [List.map_cons, pragmaError, if_pos (And.intro hw hn)]
          refine ⟨n, ?_, by rw [← hd]; rfl⟩
          simp [List.length_map]
        | some x =>
          simp only [List.map_cons, pragmaError, hn]
          rw [if_neg (by simp)]
          dsimp only
          by_cases hx : x < 1
          · simp [P.opPragma, P.mustReadPragma, P.bind_apply, P.addMcr, P.mustRead, P.mustReadArg, P.scan,
              P.text, LineCtx.text, LineCtx.curr, hw, P.mustReadInt, P.failToken, P.addNum, P.setVtok,
              P.pure_apply, parseDiag, P.parseUint64, P.orFail, hn, P.failCurr, recovered, Nat.lt_one_iff.1 hx] at hd
            rw [← hd]
            simp only [List.mem_singleton]
            rintro y rfl
            exact ⟨_, rfl, rfl⟩
          · simp [P.opPragma, P.mustReadPragma, P.bind_apply, P.addMcr, P.mustRead, P.mustReadArg, P.scan,
              P.text, LineCtx.text, LineCtx.curr, hw, P.mustReadInt, P.failToken, P.addNum, P.setVtok, P.setVersion, P.emit,
              P.pure_apply, parseDiag, P.parseUint64, P.orFail, hn, P.failCurr, recovered, Nat.ne_of_gt (Nat.not_lt.1 hx)] at hd
            rw [← hd]
            simp
    · have hp : pragmaError e ((w :: rest).map Token.v) = none := by
        cases rest <;> simp [pragmaError, hw]
      rw [hp]
      simp [P.opPragma, P.mustReadPragma, P.bind_apply, P.addMcr, P.mustRead, P.mustReadArg, P.scan,
        P.text, LineCtx.text, LineCtx.curr, hw, P.failToken,
        P.pure_apply, parseDiag, P.failCurr, recovered] at hd
      rw [← hd]
      simp only [List.mem_singleton]
      rintro y rfl
      exact ⟨_, rfl, rfl⟩

/-- The diagnostics about operands among those of a line. -/
def OperandEnds (ts : List Token) (diag : List Diag) (x : Option (Nat × ParseWhy × Bytes)) : Prop :=
  match x with
  | some (n, why, _) => ∃ u, ts[ts.length - n]? = some u ∧
      ∀ d, (d ∈ diag ∧ ∃ w, d.kind = .parse w ∧ w.ofOperand = true) ↔ (d = parseDiag why u ∧ why.ofOperand = true)
  | none => ∀ d ∈ diag, ∀ w, d.kind = .parse w → w.ofOperand = false

theorem processLine_operands (s : Carry) (k : Nat) (curr : Token) (rest : List Token)
    (hok : LineOk k (curr :: rest)) (hc : curr.t = .value) (o : LineOut) (h : processLine addrOk s (curr :: rest) = some o) :
    OperandEnds (curr :: rest) o.ctx.diag (operandError e addrOk s.version curr.v (rest.map Token.v)) := by
  have hval : ∀ t ∈ curr :: rest, t.t = .value ∧ t.v ≠ [] := by
    rcases hok.shape with ⟨c, h1, h2⟩ | h
    · injection h1 with h1; rw [h1] at hc; rw [hc] at h2; cases h2
    · exact h
  unfold processLine at h
  unfold operandError
  simp only at h
  rw [if_neg (by rw [hc]; decide)] at h
  by_cases hl : curr.v.getLast? = some chColon
  · rw [if_pos hl] at h ⊢
    split at h
    · simp only [Option.map_eq_some_iff] at h
      obtain ⟨c, h1, rfl⟩ := h
      injection h1 with h1
      intro d hd w hw
      rw [← h1] at hd
      rw [show d = parseDiag .missingLabelName curr by simpa [LineCtx.curr, parseDiag] using hd] at hw
      cases hw; rfl
    · injection h with h
      subst h
      intro d hd
      cases hd
  · rw [if_neg hl, if_neg (hval curr (by simp)).2] at h
    rw [if_neg hl]
    by_cases hp : curr.v = b!"#pragma"
    · rw [if_pos hp] at h ⊢
      simp only [Option.map_eq_some_iff] at h
      obtain ⟨c, h1, rfl⟩ := h
      have h2 := pragma_operands (e := e) curr rest s.version c h1
      revert h2
      cases pragmaError e (rest.map Token.v) with
      | none =>
        intro h2 d hd w hw
        obtain ⟨w', h3, h4⟩ := h2 d hd
        rw [hw] at h3; cases h3
        exact h4
      | some x =>
        rintro ⟨u, h3, h4⟩
        refine ⟨u, h3, fun d => ?_⟩
        show (d ∈ c.diag ∧ _) ↔ _
        rw [h4, List.mem_singleton]
        constructor
        · rintro ⟨rfl, w, h5, h6⟩
          cases h5
          exact ⟨rfl, h6⟩
        · rintro ⟨rfl, h6⟩
          exact ⟨rfl, _, rfl, h6⟩
    · rw [if_neg hp] at h ⊢
      cases he : opsGet curr.v with
      | none =>
        rw [he] at h
        simp only [Option.map_eq_some_iff] at h
        obtain ⟨c, h1, rfl⟩ := h
        injection h1 with h1
        intro d hd w hw
        rw [← h1] at hd
        rw [show d = parseDiag (.unknownOpcode curr.v) curr by simpa [LineCtx.curr, parseDiag] using hd] at hw
        cases hw; rfl
      | some en =>
        rw [he] at h
        simp only [Option.map_eq_some_iff] at h
        obtain ⟨c, h1, rfl⟩ := h
        have h2 := parseOp_operands (e := e) en (opsGet_mem he).1 _ (by simp) (fun t ht => (hval t ht).2) rfl c h1
        have hav := avail_kinds s.mode (en.minVersion s.mode) s.version curr
        replace h2 : OperandEnd (curr :: rest) (availDiags s.mode (en.minVersion s.mode) s.version curr) c
            (walkArgs e addrOk s.version en.readArgs false (rest.map Token.v)) := h2
        revert h2
        dsimp only
        cases walkArgs e addrOk s.version en.readArgs false (rest.map Token.v) with
        | none =>
          rintro ⟨l, h3, h4⟩ d hd w hw
          replace hd : d ∈ c.diag := hd
          rw [h3] at hd
          rcases List.mem_append.1 hd with hd | hd
          · exact absurd hw (hav d hd w)
          · have := h4 d hd
            rw [hw] at this; cases this; rfl
        | some x =>
          rintro ⟨u, h3, h4⟩
          refine ⟨u, h3, fun d => ?_⟩
          show (d ∈ c.diag ∧ _) ↔ _
          rw [h4]
          constructor
          · rintro ⟨hd, w, h5, h6⟩
            rcases List.mem_append.1 hd with hd | hd
            · exact absurd h5 (hav d hd w)
            · obtain rfl := List.mem_singleton.1 hd
              cases h5
              exact ⟨rfl, h6⟩
          · rintro ⟨rfl, h6⟩
            exact ⟨by simp, _, rfl, h6⟩

/-- The errors about operands of the lines, where a version is in force. -/
theorem operandErrors_get {s : Carry} {ls : List (List Token)} {os : List LineOut} (h : Run addrOk s ls os) (k : Nat) (t : Token)
    (ts : List Token) (hl : ls[k]? = some (t :: ts)) (ht : t.t = .value) :
    (operandErrors e addrOk s ls)[k]? = some (operandError e addrOk (carryAt s os k).version t.v (ts.map Token.v)) := by
  induction h generalizing k with
  | nil => simp at hl
  | cons s l0 o ls os h hf hr ih =>
    unfold operandErrors
    rw [h]
    cases k with
    | zero =>
      simp only [List.getElem?_cons_zero, Option.some.injEq] at hl
      subst hl
      rw [List.getElem?_cons_zero]
      dsimp only
      rw [if_neg (by rw [ht]; decide)]
      rfl
    | succ k =>
      rw [List.getElem?_cons_succ] at hl
      obtain ⟨o', h1, -, -⟩ := hr.get k _ hl
      have hc : carryAt s (o :: os) (k + 1) = carryAt o.next os k := by
        cases k with
        | zero => rfl
        | succ k =>
          show ((o :: os)[k + 1]?.map (·.next)).getD s = (os[k]?.map (·.next)).getD o.next
          have hk : k < os.length := by
            have := (List.getElem?_eq_some_iff.1 h1).1; omega
          rw [List.getElem?_cons_succ, List.getElem?_eq_getElem hk]; rfl
      rw [hc, List.getElem?_cons_succ]
      exact ih k hl

end Teal
