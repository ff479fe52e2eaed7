import Verif.Lemmas.Parse
import Verif.Lemmas.Lines

/-! What one round of the loop of `Process` does. -/

namespace Teal
open P Spec

/-- The three ways in which reading an instruction ends. -/
inductive ParseEnd (addrOk : Bytes → Bool) (e : OpEntry) (c d : LineCtx) : Prop
  | good (o : Op) (ho : EmitOk addrOk e.shape o)
      (hl : o.labels = (labelTokens e.shape c.ts 1).map Token.v)
      (ops : d.ops = [o]) (diag : d.diag = c.diag)
  | more (o : Op) (ho : EmitOk addrOk e.shape o)
      (hl : o.labels = (labelTokens e.shape c.ts 1).map Token.v)
      (t : Token) (ht : t ∈ c.ts)
      (ops : d.ops = [o, .empty]) (diag : d.diag = c.diag ++ [parseDiag .tooManyValues t])
  | bad (why : ParseWhy) (hw : why.ofOperand = true) (t : Token) (ht : t ∈ c.ts)
      (hl : labelTokens e.shape c.ts 1 = [])
      (ops : d.ops = [.empty]) (diag : d.diag = c.diag ++ [parseDiag why t])

/-- What reading an instruction does in all cases. -/
structure ParseDone (addrOk : Bytes → Bool) (e : OpEntry) (c d : LineCtx) : Prop where
  ts : d.ts = c.ts
  version : d.version = c.version
  vtok : d.vtok = c.vtok
  nums : ∀ t ∈ d.nums, t ∈ c.ts
  strs : ∀ t ∈ d.strs, t ∈ c.ts
  keys : ∀ t ∈ d.keys, t ∈ c.ts
  mcrs : d.mcrs = c.mcrs
  refs : d.refs = labelTokens e.shape c.ts 1
  how : ParseEnd addrOk e c d

theorem Grew.sub {ts d : List Token} (h : Grew ts [] d) : ∀ t ∈ d, t ∈ ts := by
  obtain ⟨x, rfl, hx⟩ := h
  simpa using hx

theorem parseOp_done (addrOk : Bytes → Bool) (e : OpEntry) (c : LineCtx) (hne : c.ts ≠ [])
    (htext : ∀ t ∈ c.ts, t.v ≠ []) (hi : c.i = 1) (h0 : c.ops = []) (h1 : c.nums = [])
    (h2 : c.strs = []) (h3 : c.keys = []) (h4 : c.refs = []) :
    ∃ d, recovered (parseOp addrOk e c) = some d ∧ ParseDone addrOk e c d := by
  have hm : Mid c := ⟨by omega, by omega, hne, htext⟩
  have h := emits_parseShape addrOk e.shape c hm
  unfold parseOp
  rw [P.bind_apply]
  cases hp : P.parseShape addrOk e.shape c with
  | crash => rw [hp] at h; exact h.elim
  | fail d =>
    rw [hp] at h
    obtain ⟨⟨hk, hr, why, t, hw, ht, hd⟩, hl⟩ := h
    rw [hi] at hl
    refine ⟨_, rfl, hk.ts, hk.version, hk.vtok, ?_, ?_, ?_, hk.mcrs, ?_, ?_⟩
    · exact Grew.sub (h1 ▸ hk.nums)
    · exact Grew.sub (h2 ▸ hk.strs)
    · exact Grew.sub (h3 ▸ hk.keys)
    · show d.refs = _
      rw [hr, h4, hl]
    · refine .bad why hw t ht hl ?_ hd
      show d.ops ++ [Op.empty] = _
      rw [hk.ops, h0]; rfl
  | ok u d =>
    rw [hp] at h
    obtain ⟨o, ho, hops, hl⟩ := h.op
    rw [hi] at hl
    have hrefs : d.refs = labelTokens e.shape c.ts 1 := by rw [h.refs, h4, hi]; rfl
    by_cases hmore : d.i < d.ts.length
    · let d1 : LineCtx := { d with i := d.i + 1 }
      refine ⟨{ d1 with diag := d.diag ++ [parseDiag .tooManyValues d1.curr], ops := d.ops ++ [.empty] }, ?_, ?_⟩
      · simp only [P.bind_apply, P.hasMore, P.scan, hmore, decide_true, if_true, if_pos (Nat.le_of_lt hmore),
          Nat.succ_le_of_lt hmore]
        rfl
      · have hcurr : LineCtx.curr { d with i := d.i + 1 } ∈ c.ts := by
          rw [← h.ts]
          unfold LineCtx.curr
          rw [if_pos ⟨Nat.succ_pos _, hmore⟩]
          show d.ts.getD (d.i + 1 - 1) .zero ∈ d.ts
          rw [Nat.add_sub_cancel, List.getD_eq_getElem?_getD, List.getElem?_eq_getElem hmore]
          exact List.getElem_mem _
        refine ⟨h.ts, h.version, h.vtok, Grew.sub (h1 ▸ h.nums), Grew.sub (h2 ▸ h.strs),
          Grew.sub (h3 ▸ h.keys), h.mcrs, hrefs, ?_⟩
        refine .more o ho hl _ hcurr ?_ ?_
        · show d.ops ++ [Op.empty] = _
          rw [hops, h0]; rfl
        · show d.diag ++ _ = _
          rw [h.diag]; rfl
    · refine ⟨d, ?_, ?_⟩
      · simp only [P.bind_apply, P.hasMore, hmore, decide_false]
        rfl
      · refine ⟨h.ts, h.version, h.vtok, Grew.sub (h1 ▸ h.nums), Grew.sub (h2 ▸ h.strs),
          Grew.sub (h3 ▸ h.keys), h.mcrs, hrefs, ?_⟩
        exact .good o ho hl (by rw [hops, h0]; rfl) h.diag

/-! ## The version pragma -/

/-- The three words of a version pragma that is accepted, as the code reads it. -/
def pragmaVersion? : List Token → Option Nat
  | _ :: w :: n :: _ =>
    if w.v = b!"version" then
      match readInt n.v with
      | some v => if v < 1 then none else some v
      | none => none
    else none
  | _ => none

/-- How reading a pragma line ends. -/
inductive PragmaEnd (ts : List Token) (v : Nat) : Out Unit → Prop
  | good (d : LineCtx) (n : Nat) (h : pragmaVersion? ts = some n) (hts : d.ts = ts)
      (hv : d.version = n) (hops : d.ops = [.pragma (n % 256)]) (hdiag : d.diag = [])
      (hrefs : d.refs = []) (hnums : ∀ t ∈ d.nums, t ∈ ts) (hstrs : d.strs = []) (hkeys : d.keys = [])
      (hmcrs : ∀ t ∈ d.mcrs, t ∈ ts) (hvtok : ∀ t ∈ d.vtok, t ∈ ts) : PragmaEnd ts v (.ok () d)
  | bad (d : LineCtx) (h : pragmaVersion? ts = none) (hts : d.ts = ts)
      (hv : d.version = v) (hops : d.ops = []) (why : ParseWhy) (t : Token) (ht : t ∈ ts)
      (hw : why ≠ .tooManyValues) (hdiag : d.diag = [parseDiag why t])
      (hrefs : d.refs = []) (hnums : ∀ t ∈ d.nums, t ∈ ts) (hstrs : d.strs = []) (hkeys : d.keys = [])
      (hmcrs : ∀ t ∈ d.mcrs, t ∈ ts) (hvtok : ∀ t ∈ d.vtok, t ∈ ts) : PragmaEnd ts v (.fail d)

theorem opPragma_end (curr : Token) (rest : List Token) (v : Nat) :
    PragmaEnd (curr :: rest) v (P.opPragma { ts := curr :: rest, i := 1, version := v }) := by
  cases rest with
  | nil =>
    refine .bad { ts := [curr], i := 2, version := v, mcrs := [curr], diag := [parseDiag .missingArg curr] }
      rfl rfl rfl rfl .missingArg curr (by simp) (by decide) rfl rfl ?_ rfl rfl ?_ ?_ <;> simp
  | cons w rest =>
    by_cases hw : w.v = b!"version"
    · cases rest with
      | nil =>
        have h : P.opPragma { ts := [curr, w], i := 1, version := v } = .fail
            { ts := [curr, w], i := 3, version := v, mcrs := [curr, w], diag := [parseDiag .missingArg w] } := by
          simp [P.opPragma, P.mustReadPragma, P.bind_apply, P.addMcr, P.mustRead, P.mustReadArg, P.scan,
            P.text, LineCtx.text, LineCtx.curr, hw, P.mustReadInt, P.failPrev, P.failToken, LineCtx.prev,
            P.pure_apply, parseDiag]
        rw [h]
        refine .bad _ rfl rfl rfl rfl .missingArg w (by simp) (by decide) rfl rfl ?_ rfl rfl ?_ ?_ <;> simp
      | cons n more =>
        cases hn : readInt n.v with
        | none =>
          have h : P.opPragma { ts := curr :: w :: n :: more, i := 1, version := v } = .fail
              { ts := curr :: w :: n :: more, i := 3, version := v, mcrs := [curr, w],
                diag := [parseDiag .badUint64 n] } := by
            simp [P.opPragma, P.mustReadPragma, P.bind_apply, P.addMcr, P.mustRead, P.mustReadArg, P.scan,
              P.text, LineCtx.text, LineCtx.curr, hw, P.mustReadInt, P.failToken,
              P.pure_apply, parseDiag, P.parseUint64, P.orFail, hn, P.failCurr]
          rw [h]
          refine .bad _ (by simp [pragmaVersion?, hn]) rfl rfl rfl .badUint64 n (by simp) (by decide) rfl rfl ?_ rfl rfl ?_ ?_ <;>
            simp
        | some x =>
          by_cases hx : x < 1
          · have h : P.opPragma { ts := curr :: w :: n :: more, i := 1, version := v } = .fail
              { ts := curr :: w :: n :: more, i := 3, version := v, mcrs := [curr, w], nums := [n],
                vtok := some n, diag := [parseDiag .badVersion n] } := by
              simp [P.opPragma, P.mustReadPragma, P.bind_apply, P.addMcr, P.mustRead, P.mustReadArg, P.scan,
                P.text, LineCtx.text, LineCtx.curr, hw, P.mustReadInt, P.failToken,
                P.pure_apply, parseDiag, P.parseUint64, P.orFail, hn, P.failCurr, P.addNum, P.setVtok, Nat.lt_one_iff.1 hx]
            rw [h]
            refine .bad _ (by simp [pragmaVersion?, hn, hx]) rfl rfl rfl .badVersion n (by simp) (by decide) rfl rfl ?_ rfl rfl ?_ ?_ <;>
              simp
          · have h : P.opPragma { ts := curr :: w :: n :: more, i := 1, version := v } = .ok ()
              { ts := curr :: w :: n :: more, i := 3, version := x, mcrs := [curr, w], nums := [n],
                vtok := some n, ops := [.pragma (x % 256)] } := by
              simp [P.opPragma, P.mustReadPragma, P.bind_apply, P.addMcr, P.mustRead, P.mustReadArg, P.scan,
                P.text, LineCtx.text, LineCtx.curr, hw, P.mustReadInt,
                P.pure_apply, P.parseUint64, P.orFail, hn, P.addNum, P.emit, P.setVtok, P.setVersion, Nat.ne_of_gt (Nat.not_lt.1 hx)]
            rw [h]
            refine .good _ x (by simp [pragmaVersion?, hn, hx, hw]) rfl rfl rfl rfl rfl ?_ rfl rfl ?_ ?_ <;> simp
    · have h : P.opPragma { ts := curr :: w :: rest, i := 1, version := v } = .fail
          { ts := curr :: w :: rest, i := 2, version := v, mcrs := [curr],
            diag := [parseDiag (.unknownPragma w.v) w] } := by
        simp [P.opPragma, P.mustReadPragma, P.bind_apply, P.addMcr, P.mustRead, P.mustReadArg, P.scan,
          P.text, LineCtx.text, LineCtx.curr, hw, P.failToken,
          P.pure_apply, parseDiag, P.failCurr]
      rw [h]
      refine .bad _ ?_ rfl rfl rfl (.unknownPragma w.v) w (by simp) (by simp) rfl rfl ?_ rfl rfl ?_ ?_
      · cases rest with
        | nil => rfl
        | cons n more => simp [pragmaVersion?, hw]
      all_goals simp

/-! ## One line -/

/-- The version a line sets. -/
def lineVersion? : List Token → Option Nat
  | [] => none
  | t :: ts => if t.t = .value ∧ t.v = b!"#pragma" then pragmaVersion? (t :: ts) else none

/-- A comment line that switches to logic signature mode. -/
def lineMode : List Token → Bool
  | [t] => decide (t.t = .comment) && decide (trimSpace t.v = b!"#pragma mode logicsig")
  | _ => false

/-- The word of a line that defines a label. -/
def labelHead : List Token → Option Token
  | [] => none
  | t :: _ => if t.t = .value ∧ (labelName t.v).isSome = true then some t else none

/-- The instruction of a line. -/
def instrOf : List Token → Option (Token × OpEntry)
  | [] => none
  | t :: _ => if t.t = .value then (opsGet t.v).map fun e => (t, e) else none

/-- Diagnostics about versions and modes. -/
def DiagKind.isAvail : DiagKind → Bool
  | .mode _ => true
  | .version _ _ => true
  | _ => false

/-- What one round of the loop of `Process` does. -/
structure LineFacts (s : Carry) (line : List Token) (o : LineOut) : Prop where
  version : o.next.version = (lineVersion? line).getD s.version
  mode : o.next.mode = if lineMode line then .sig else s.mode
  vtok : ∀ t ∈ o.ctx.vtok, t ∈ line
  ops : (∃ op, o.ctx.ops = [op] ∧ ∀ d ∈ o.ctx.diag, d.kind ≠ .parse .tooManyValues) ∨
    (∃ op t, o.ctx.ops = [op, .empty] ∧ t ∈ line ∧ parseDiag .tooManyValues t ∈ o.ctx.diag)
  labels : o.ctx.ops.flatMap Op.labels = o.ctx.refs.map Token.v
  refs : o.ctx.refs = labelOperands line
  diagPos : ∀ d ∈ o.ctx.diag, ∃ t ∈ line, d.l = t.l ∧ d.b = t.b ∧ d.e = t.e
  diagKind : ∀ d ∈ o.ctx.diag, d.kind.isAvail = true ∨ ∃ w, d.kind = .parse w
  avail : o.ctx.diag.filter (·.kind.isAvail) =
    match instrOf line with
    | some (t, e) => availDiags s.mode (e.minVersion s.mode) s.version t
    | none => []
  ver : o.ver =
    match instrOf line with
    | some (t, e) => if e.minVersion s.mode > s.version
        then some ⟨t.l, lineBegin line, lineEnd line, e.minVersion s.mode⟩ else none
    | none => none
  opTok : o.opTok = (instrOf line).map Prod.fst
  sym : o.sym = (labelHead line).map fun t =>
    { name := t.v.dropLast, l := t.l, b := t.b, e := t.e, docs := joinLF s.comments }
  defs : o.ctx.ops.filterMap Op.labelName? = (labelHead line).toList.map (·.v.dropLast)
  nums : ∀ t ∈ o.ctx.nums, t ∈ line
  strs : ∀ t ∈ o.ctx.strs, t ∈ line
  keys : ∀ t ∈ o.ctx.keys, t ∈ line
  mcrs : ∀ t ∈ o.ctx.mcrs, t ∈ line

theorem opsGet_mem {n : Bytes} {e : OpEntry} (h : opsGet n = some e) : e ∈ opsList ∧ e.name = n := by
  unfold opsGet at h
  have h1 := List.mem_of_find?_eq_some h
  have h2 := List.find?_some h
  exact ⟨by simpa using h1, by simpa using h2⟩

/-- No opcode is spelled like a label definition or a pragma. -/
theorem opsList_names : ∀ e ∈ opsList, e.name.getLast? ≠ some chColon ∧ e.name ≠ [] ∧
    e.name ≠ b!"#pragma" := by decide +kernel

/-- The opcodes that read labels. -/
theorem opsList_labels : ∀ e ∈ opsList,
    (e.name ∈ [b!"b", b!"bz", b!"bnz", b!"callsub"] → ∃ k, e.shape = .branch k) ∧
    (e.name ∈ [b!"switch", b!"match"] → e.shape = .switch ∨ e.shape = .match_) ∧
    (e.name ∉ [b!"b", b!"bz", b!"bnz", b!"callsub"] → e.name ∉ [b!"switch", b!"match"] →
      e.shape.noLabels = true) := by
  have h : ∀ e ∈ opsList,
    (e.name ∈ [b!"b", b!"bz", b!"bnz", b!"callsub"] →
      e.shape = .branch .b ∨ e.shape = .branch .bz ∨ e.shape = .branch .bnz ∨ e.shape = .branch .callsub) ∧
    (e.name ∈ [b!"switch", b!"match"] → e.shape = .switch ∨ e.shape = .match_) ∧
    (e.name ∉ [b!"b", b!"bz", b!"bnz", b!"callsub"] → e.name ∉ [b!"switch", b!"match"] →
      e.shape.noLabels = true) := by decide +kernel
  intro e he
  refine ⟨fun hn => ?_, (h e he).2⟩
  rcases (h e he).1 hn with h | h | h | h <;> exact ⟨_, h⟩

theorem labelTokens_eq {t : Token} {rest : List Token} {e : OpEntry} (h : opsGet t.v = some e) :
    labelTokens e.shape (t :: rest) 1 = labelOperands (t :: rest) := by
  obtain ⟨h1, h2⟩ := opsGet_mem h
  obtain ⟨h3, h4, h5⟩ := opsList_labels e h1
  rw [labelOperands]
  rw [h2] at h3 h4 h5
  by_cases ha : t.v ∈ [b!"b", b!"bz", b!"bnz", b!"callsub"]
  · rw [if_pos ha]
    obtain ⟨k, hk⟩ := h3 ha
    rw [hk]; rfl
  · rw [if_neg ha]
    by_cases hb : t.v ∈ [b!"switch", b!"match"]
    · rw [if_pos hb]
      rcases h4 hb with hk | hk <;> rw [hk] <;> rfl
    · rw [if_neg hb]
      exact labelTokens_noLabels (h5 ha hb) _ _

theorem labelOperands_unknown {t : Token} {rest : List Token} (h : opsGet t.v = none) :
    labelOperands (t :: rest) = [] := by
  have h1 : ∀ n ∈ [b!"b", b!"bz", b!"bnz", b!"callsub"], opsGet n ≠ none := by decide +kernel
  have h2 : ∀ n ∈ [b!"switch", b!"match"], opsGet n ≠ none := by decide +kernel
  rw [labelOperands]
  rw [if_neg (fun hn => h1 _ hn h), if_neg (fun hn => h2 _ hn h)]

theorem opsGet_colon {n : Bytes} (h : n.getLast? = some chColon) : opsGet n = none := by
  cases ho : opsGet n with
  | none => rfl
  | some e =>
    obtain ⟨h1, h2⟩ := opsGet_mem ho
    exact absurd (h2 ▸ h) (opsList_names e h1).1

theorem opsGet_pragma : opsGet b!"#pragma" = none := by decide +kernel

theorem emitOk_not_label {addrOk : Bytes → Bool} {sh : Shape} {o : Op} (h : EmitOk addrOk sh o) :
    Op.labelName? o = none := by
  cases sh <;> simp only [EmitOk] at h <;> first
    | (subst h; rfl; done)
    | (obtain ⟨_, rfl⟩ := h; rfl; done)
    | (obtain ⟨_, _, rfl⟩ := h; rfl; done)
    | (obtain ⟨_, _, _, rfl⟩ := h; rfl; done)
    | (obtain ⟨_, _, _, _, rfl⟩ := h; rfl; done)
    | (obtain ⟨_, _, _, _, _, rfl⟩ := h; rfl; done)
    | (obtain ⟨_, _, _, _, _, _, rfl⟩ := h; rfl; done)
    | (obtain ⟨_, _, _, _, _, _, _, rfl⟩ := h; rfl; done)
    | (obtain ⟨_, _, _, _, _, _, _, _, rfl⟩ := h; rfl; done)
    | (obtain ⟨_, _, _, _, _, _, _, _, _, rfl⟩ := h; rfl; done)
    | (obtain ⟨_, _, _, _, _, rfl | ⟨_, _, rfl⟩⟩ := h <;> rfl)
    | (obtain ⟨_, _, _, _, _, _, _, rfl | ⟨_, _, rfl⟩⟩ := h <;> rfl)
    | (obtain rfl | ⟨_, _, rfl⟩ := h <;> rfl)
    | (obtain rfl | ⟨_, _, _, _, rfl⟩ := h <;> rfl)

theorem processLine_facts (addrOk : Bytes → Bool) (s : Carry) (k : Nat) (line : List Token)
    (hok : LineOk k line) : ∃ o, processLine addrOk s line = some o ∧ LineFacts s line o := by
  cases line with
  | nil =>
    refine ⟨_, rfl, rfl, rfl, ?_, .inl ⟨_, rfl, ?_⟩, rfl, rfl, ?_, ?_, rfl, rfl, rfl, rfl, rfl, ?_, ?_, ?_, ?_⟩ <;> simp
  | cons curr rest =>
    unfold processLine
    simp only
    by_cases hc : curr.t = .comment
    · have hrest : rest = [] := by
        rcases hok.shape with ⟨c, h1, -⟩ | h
        · injection h1
        · have := (h curr (by simp)).1
          rw [hc] at this; cases this
      subst hrest
      have hr : labelOperands [curr] = [] := by simp [labelOperands]
      have hi : instrOf [curr] = none := by simp [instrOf, hc]
      have hl : labelHead [curr] = none := by simp [labelHead, hc]
      have hv : lineVersion? [curr] = none := by simp [lineVersion?, hc]
      rw [if_pos hc]
      by_cases hm : trimSpace curr.v = b!"#pragma mode logicsig"
      · rw [if_pos hm]
        refine ⟨_, rfl, by rw [hv]; rfl, by simp [lineMode, hc, hm], ?_, .inl ⟨_, rfl, ?_⟩, rfl,
          hr.symm, ?_, ?_, by rw [hi]; rfl, by rw [hi], by rw [hi]; rfl, by rw [hl]; rfl,
          by rw [hl]; rfl, ?_, ?_, ?_, ?_⟩ <;> simp
      · rw [if_neg hm]
        refine ⟨_, rfl, by rw [hv]; rfl, by simp [lineMode, hc, hm], ?_, .inl ⟨_, rfl, ?_⟩, rfl,
          hr.symm, ?_, ?_, by rw [hi]; rfl, by rw [hi], by rw [hi]; rfl, by rw [hl]; rfl,
          by rw [hl]; rfl, ?_, ?_, ?_, ?_⟩ <;> simp
    · have hval : ∀ t ∈ curr :: rest, t.t = .value ∧ t.v ≠ [] := by
        rcases hok.shape with ⟨c, h1, h2⟩ | h
        · injection h1 with h1; rw [h1] at hc; exact absurd h2 hc
        · exact h
      have hcv := hval curr (by simp)
      have hmode : lineMode (curr :: rest) = false := by
        cases rest <;> simp [lineMode, hc]
      rw [if_neg hc]
      by_cases hcol : curr.v.getLast? = some chColon
      · have hop : opsGet curr.v = none := opsGet_colon hcol
        have hr := labelOperands_unknown (rest := rest) hop
        have hi : instrOf (curr :: rest) = none := by simp [instrOf, hop]
        have hnp : curr.v ≠ b!"#pragma" := by
          intro h; rw [h] at hcol; revert hcol; decide
        have hv : lineVersion? (curr :: rest) = none := by simp [lineVersion?, hnp]
        rw [if_pos hcol]
        by_cases hname : curr.v.dropLast = []
        · have hl : labelHead (curr :: rest) = none := by
            have : curr.v = [chColon] := by
              obtain ⟨ys, hys⟩ := List.getLast?_eq_some_iff.1 hcol
              rw [hys, List.dropLast_concat] at hname
              rw [hys, hname]; rfl
            simp [labelHead, labelName, this]
          rw [if_pos hname]
          refine ⟨_, rfl, by rw [hv]; rfl, by rw [hmode]; rfl, ?_, .inl ⟨.empty, rfl, ?_⟩, rfl,
            hr.symm, ?_, ?_, by rw [hi]; rfl, by rw [hi], by rw [hi]; rfl, by rw [hl]; rfl,
            by rw [hl]; rfl, ?_, ?_, ?_, ?_⟩ <;> simp [LineCtx.curr]
        · have hl : labelHead (curr :: rest) = some curr := by
            have hne : curr.v ≠ [chColon] := by
              intro h; rw [h] at hname; exact hname rfl
            simp [labelHead, labelName, hcol, hne, hcv.1]
          rw [if_neg hname]
          refine ⟨_, rfl, by rw [hv]; rfl, by rw [hmode]; rfl, ?_, .inl ⟨_, rfl, ?_⟩, rfl,
            hr.symm, ?_, ?_, by rw [hi]; rfl, by rw [hi], by rw [hi]; rfl, by rw [hl]; rfl,
            by rw [hl]; rfl, ?_, ?_, ?_, ?_⟩ <;> simp
      · have hl : labelHead (curr :: rest) = none := by simp [labelHead, labelName, hcol]
        rw [if_neg hcol, if_neg hcv.2]
        by_cases hp : curr.v = b!"#pragma"
        · have hop : opsGet curr.v = none := by rw [hp]; exact opsGet_pragma
          have hr := labelOperands_unknown (rest := rest) hop
          have hi : instrOf (curr :: rest) = none := by simp [instrOf, hop]
          have hv : lineVersion? (curr :: rest) = pragmaVersion? (curr :: rest) := by
            simp [lineVersion?, hp, hcv.1]
          rw [if_pos hp]
          have hend := opPragma_end curr rest s.version
          generalize P.opPragma _ = out at hend
          cases hend with
          | good d n h hts hvr hops hdiag hrefs hnums hstrs hkeys hmcrs hvtok =>
            refine ⟨_, rfl, by rw [hv, h, ← hvr]; rfl, by rw [hmode]; rfl, hvtok, .inl ⟨_, hops, ?_⟩,
              by rw [hops, hrefs]; rfl, by rw [hr]; exact hrefs, ?_, ?_, by rw [hi, hdiag]; rfl,
              by rw [hi], by rw [hi]; rfl, by rw [hl]; rfl, by rw [hl, hops]; rfl, hnums, ?_, ?_, hmcrs⟩
            all_goals simp [hdiag, hstrs, hkeys]
          | bad d h hts hvr hops why t ht hw hdiag hrefs hnums hstrs hkeys hmcrs hvtok =>
            refine ⟨_, rfl, by rw [hv, h, ← hvr]; rfl, by rw [hmode]; rfl, hvtok,
              .inl ⟨.empty, by show d.ops ++ [_] = _; rw [hops]; rfl, ?_⟩,
              by show (d.ops ++ [_]).flatMap _ = d.refs.map _; rw [hops, hrefs]; rfl,
              by rw [hr]; exact hrefs, ?_, ?_,
              by show d.diag.filter _ = _; rw [hi, hdiag]; rfl,
              by rw [hi], by rw [hi]; rfl, by rw [hl]; rfl,
              by show (d.ops ++ [_]).filterMap _ = _; rw [hl, hops]; rfl, hnums, ?_, ?_, hmcrs⟩
            · show ∀ x ∈ d.diag, _
              rw [hdiag]; simpa [parseDiag] using hw
            · show ∀ x ∈ d.diag, _
              rw [hdiag]; intro x hx; rw [List.mem_singleton.1 hx]; exact ⟨t, ht, rfl, rfl, rfl⟩
            · show ∀ x ∈ d.diag, _
              rw [hdiag]; intro x hx; rw [List.mem_singleton.1 hx]; exact .inr ⟨_, rfl⟩
            · show ∀ x ∈ d.strs, _
              rw [hstrs]; simp
            · show ∀ x ∈ d.keys, _
              rw [hkeys]; simp
        · have hv : lineVersion? (curr :: rest) = none := by simp [lineVersion?, hp]
          rw [if_neg hp]
          cases hop : opsGet curr.v with
          | none =>
            have hr := labelOperands_unknown (rest := rest) hop
            have hi : instrOf (curr :: rest) = none := by simp [instrOf, hop]
            refine ⟨_, rfl, by rw [hv]; rfl, by rw [hmode]; rfl, ?_, .inl ⟨.empty, rfl, ?_⟩, rfl,
              hr.symm, ?_, ?_, by rw [hi]; rfl, by rw [hi], by rw [hi]; rfl, by rw [hl]; rfl,
              by rw [hl]; rfl, ?_, ?_, ?_, ?_⟩ <;> simp [LineCtx.curr]
          | some e =>
            have hi : instrOf (curr :: rest) = some (curr, e) := by simp [instrOf, hop, hcv.1]
            obtain ⟨d, hd, hdone⟩ := parseOp_done addrOk e
              { ts := curr :: rest, i := 1, version := s.version,
                diag := availDiags s.mode (e.minVersion s.mode) s.version curr }
              (by simp) (fun t ht => (hval t ht).2) rfl rfl rfl rfl rfl rfl
            have hlt := labelTokens_eq (rest := rest) hop
            have havpos : ∀ x ∈ availDiags s.mode (e.minVersion s.mode) s.version curr,
                x.kind.isAvail = true ∧ x.l = curr.l ∧ x.b = curr.b ∧ x.e = curr.e := by
              intro x hx
              unfold availDiags at hx
              rcases List.mem_append.1 hx with hx | hx <;> split at hx <;>
                first
                | (rw [List.mem_singleton.1 hx]; exact ⟨rfl, rfl, rfl, rfl⟩)
                | cases hx
            have hav : (availDiags s.mode (e.minVersion s.mode) s.version curr).filter (·.kind.isAvail) =
                availDiags s.mode (e.minVersion s.mode) s.version curr :=
              List.filter_eq_self.2 fun x hx => (havpos x hx).1
            have havno : ∀ x ∈ availDiags s.mode (e.minVersion s.mode) s.version curr,
                x.kind ≠ .parse .tooManyValues := by
              intro x hx h
              have := (havpos x hx).1
              rw [h] at this; cases this
            simp only [hd, Option.map_some]
            have hts := hdone.ts
            have hrefs : d.refs = labelOperands (curr :: rest) := hdone.refs.trans hlt
            have hvt : ∀ t ∈ d.vtok, t ∈ curr :: rest := by rw [hdone.vtok]; simp
            have hmc : ∀ t ∈ d.mcrs, t ∈ curr :: rest := by rw [hdone.mcrs]; simp
            have key : ((∃ op, d.ops = [op] ∧ ∀ x ∈ d.diag, x.kind ≠ .parse .tooManyValues) ∨
                (∃ op t, d.ops = [op, .empty] ∧ t ∈ curr :: rest ∧
                  parseDiag .tooManyValues t ∈ d.diag)) ∧
                d.ops.flatMap Op.labels = d.refs.map Token.v ∧
                (∀ x ∈ d.diag, ∃ t ∈ curr :: rest, x.l = t.l ∧ x.b = t.b ∧ x.e = t.e) ∧
                (∀ x ∈ d.diag, x.kind.isAvail = true ∨ ∃ w, x.kind = .parse w) ∧
                d.diag.filter (·.kind.isAvail) = availDiags s.mode (e.minVersion s.mode) s.version curr ∧
                d.ops.filterMap Op.labelName? = [] := by
              cases hdone.how with
              | good o ho hlab hops hdiag =>
                rw [hops, hdiag]
                refine ⟨.inl ⟨o, rfl, havno⟩, ?_, fun x hx => ⟨curr, by simp, (havpos x hx).2⟩,
                  fun x hx => .inl (havpos x hx).1, hav, by simp [emitOk_not_label ho]⟩
                rw [hdone.refs]; simpa using hlab
              | more o ho hlab t ht hops hdiag =>
                rw [hops, hdiag]
                refine ⟨.inr ⟨o, t, rfl, ht, by simp⟩, ?_, fun x hx => ?_, fun x hx => ?_, ?_, ?_⟩
                · rw [hdone.refs]; simpa [Op.labels, Op.labels?] using hlab
                · rcases List.mem_append.1 hx with hx | hx
                  · exact ⟨curr, by simp, (havpos x hx).2⟩
                  · rw [List.mem_singleton.1 hx]; exact ⟨t, ht, rfl, rfl, rfl⟩
                · rcases List.mem_append.1 hx with hx | hx
                  · exact .inl (havpos x hx).1
                  · rw [List.mem_singleton.1 hx]; exact .inr ⟨_, rfl⟩
                · rw [List.filter_append, hav]; exact List.append_nil _
                · rw [List.filterMap_cons_none (emitOk_not_label ho)]; rfl
              | bad why hw t ht hlab hops hdiag =>
                rw [hops, hdiag]
                refine ⟨.inl ⟨.empty, rfl, fun x hx => ?_⟩, ?_, fun x hx => ?_, fun x hx => ?_, ?_, rfl⟩
                · rcases List.mem_append.1 hx with hx | hx
                  · exact havno x hx
                  · rw [List.mem_singleton.1 hx]; intro he; cases he; cases hw
                · rw [hdone.refs, hlab]; rfl
                · rcases List.mem_append.1 hx with hx | hx
                  · exact ⟨curr, by simp, (havpos x hx).2⟩
                  · rw [List.mem_singleton.1 hx]; exact ⟨t, ht, rfl, rfl, rfl⟩
                · rcases List.mem_append.1 hx with hx | hx
                  · exact .inl (havpos x hx).1
                  · rw [List.mem_singleton.1 hx]; exact .inr ⟨_, rfl⟩
                · rw [List.filter_append, hav]; exact List.append_nil _
            obtain ⟨k1, k2, k3, k4, k5, k6⟩ := key
            exact ⟨_, rfl, by rw [hv]; rfl, by rw [hmode]; rfl, hvt, k1, k2, hrefs, k3, k4,
              by rw [hi]; exact k5, by rw [hi], by rw [hi]; rfl, by rw [hl]; rfl,
              by rw [hl]; exact k6, hdone.nums, hdone.strs, hdone.keys, hmc⟩

end Teal
