import Verif.Props.Process

/-!
# Lemmas: the words that diagnostics quote
-/

namespace Teal
open P Spec Props

/-- The line begins with a word that is nothing known. -/
def UnknownWord (line : List Token) (w : Bytes) : Prop :=
  ∃ t rest, line = t :: rest ∧ t.t = .value ∧ t.v = w ∧ opsGet w = none ∧ w.getLast? ≠ some chColon ∧ w ≠ b!"#pragma"

/-- The line is an unknown pragma. -/
def UnknownPragma (line : List Token) (w : Bytes) : Prop :=
  ∃ t t' rest, line = t :: t' :: rest ∧ t.t = .value ∧ t.v = b!"#pragma" ∧ t'.v = w ∧ w ≠ b!"version"

theorem opPragma_quotes (curr : Token) (rest : List Token) (v : Nat) (hv : curr.t = .value) (hc : curr.v = b!"#pragma") (d : LineCtx)
    (h : recovered (P.opPragma { ts := curr :: rest, i := 1, version := v }) = some d) (w : Bytes) :
    (¬ ∃ x ∈ d.diag, x.kind = .parse (.unknownOpcode w)) ∧
    ((∃ x ∈ d.diag, x.kind = .parse (.unknownPragma w)) ↔ UnknownPragma (curr :: rest) w) := by
  cases rest with
  | nil =>
    simp [P.opPragma, P.mustReadPragma, P.bind_apply, P.addMcr, P.mustRead, P.mustReadArg, P.scan,
      P.failPrev, P.failToken, LineCtx.prev, recovered] at h
    subst h
    simp [UnknownPragma]
  | cons n rest =>
    by_cases hn : n.v = b!"version"
    · have hno : ¬ UnknownPragma (curr :: n :: rest) w := by
        rintro ⟨_, _, _, e, -, -, rfl, h⟩; cases e; exact h hn
      have hend := opPragma_end curr (n :: rest) v
      suffices hs : ∀ x ∈ d.diag, x.kind ≠ .parse (.unknownOpcode w) ∧ x.kind ≠ .parse (.unknownPragma w) by
        refine ⟨fun ⟨x, h1, h2⟩ => (hs x h1).1 h2, fun ⟨x, h1, h2⟩ => ((hs x h1).2 h2).elim, fun h => (hno h).elim⟩
      cases rest with
      | nil =>
        simp [P.opPragma, P.mustReadPragma, P.bind_apply, P.addMcr, P.mustRead, P.mustReadArg, P.scan,
          P.text, LineCtx.text, LineCtx.curr, hn, P.mustReadInt, P.failPrev, P.failToken, LineCtx.prev,
          P.pure_apply, recovered] at h
        subst h
        simp
      | cons m more =>
        cases hm : readInt m.v with
        | none =>
          simp [P.opPragma, P.mustReadPragma, P.bind_apply, P.addMcr, P.mustRead, P.mustReadArg, P.scan,
            P.text, LineCtx.text, LineCtx.curr, hn, P.mustReadInt, P.failToken, P.pure_apply, P.parseUint64, P.orFail, hm, P.failCurr, recovered] at h
          subst h
          simp
        | some y =>
          by_cases hy : y < 1
          · simp [P.opPragma, P.mustReadPragma, P.bind_apply, P.addMcr, P.mustRead, P.mustReadArg, P.scan,
              P.text, LineCtx.text, LineCtx.curr, hn, P.mustReadInt, P.failToken, P.pure_apply, P.parseUint64, P.orFail, hm, P.failCurr,
              P.addNum, P.setVtok, Nat.lt_one_iff.1 hy, recovered] at h
            subst h
            simp
          · simp [P.opPragma, P.mustReadPragma, P.bind_apply, P.addMcr, P.mustRead, P.mustReadArg, P.scan,
              P.text, LineCtx.text, LineCtx.curr, hn, P.mustReadInt, P.pure_apply, P.parseUint64, P.orFail, hm, P.addNum, P.emit, P.setVtok,
              P.setVersion, Nat.ne_of_gt (Nat.not_lt.1 hy), recovered] at h
            subst h
            simp
    · simp [P.opPragma, P.mustReadPragma, P.bind_apply, P.addMcr, P.mustRead, P.mustReadArg, P.scan,
        P.text, LineCtx.text, LineCtx.curr, hn, P.failToken, P.pure_apply, P.failCurr, recovered] at h
      subst h
      refine ⟨by simp, ?_⟩
      simp only [List.mem_singleton, exists_eq_left, DiagKind.parse.injEq, ParseWhy.unknownPragma.injEq]
      constructor
      · rintro rfl; exact ⟨_, _, _, rfl, hv, hc, rfl, hn⟩
      · rintro ⟨_, _, _, e, -, -, rfl, -⟩; cases e; rfl

theorem processLine_quotes {addrOk : Bytes → Bool} {s : Carry} {k : Nat} {line : List Token} (hok : LineOk k line) {o : LineOut}
    (h : processLine addrOk s line = some o) (w : Bytes) :
    ((∃ x ∈ o.ctx.diag, x.kind = .parse (.unknownOpcode w)) ↔ UnknownWord line w) ∧
    ((∃ x ∈ o.ctx.diag, x.kind = .parse (.unknownPragma w)) ↔ UnknownPragma line w) := by
  have none' : ∀ {ds : List Diag}, (∀ x ∈ ds, x.kind ≠ .parse (.unknownOpcode w) ∧ x.kind ≠ .parse (.unknownPragma w)) →
      ¬ UnknownWord line w → ¬ UnknownPragma line w →
      ((∃ x ∈ ds, x.kind = .parse (.unknownOpcode w)) ↔ UnknownWord line w) ∧
      ((∃ x ∈ ds, x.kind = .parse (.unknownPragma w)) ↔ UnknownPragma line w) := fun hs h1 h2 =>
    ⟨⟨fun ⟨x, a, b⟩ => ((hs x a).1 b).elim, fun a => (h1 a).elim⟩, ⟨fun ⟨x, a, b⟩ => ((hs x a).2 b).elim, fun a => (h2 a).elim⟩⟩
  cases line with
  | nil =>
    cases h
    exact none' (by simp) (by rintro ⟨_, _, e, -⟩; cases e) (by rintro ⟨_, _, _, e, -⟩; cases e)
  | cons curr rest =>
    unfold processLine at h
    simp only at h
    by_cases hc : curr.t = .comment
    · rw [if_pos hc] at h
      have h1 : ¬ UnknownWord (curr :: rest) w := by rintro ⟨_, _, e, e', -⟩; cases e; rw [hc] at e'; cases e'
      have h2 : ¬ UnknownPragma (curr :: rest) w := by rintro ⟨_, _, _, e, e', -⟩; cases e; rw [hc] at e'; cases e'
      split at h <;> cases h <;> exact none' (by simp) h1 h2
    · have hval : ∀ t ∈ curr :: rest, t.t = .value ∧ t.v ≠ [] := by
        rcases hok.shape with ⟨c, h1, h2⟩ | h
        · injection h1 with h1; rw [h1] at hc; exact absurd h2 hc
        · exact h
      have hcv := hval curr (by simp)
      rw [if_neg hc] at h
      by_cases hcol : curr.v.getLast? = some chColon
      · rw [if_pos hcol] at h
        have h1 : ¬ UnknownWord (curr :: rest) w := by rintro ⟨_, _, e, -, rfl, -, e', -⟩; cases e; exact e' hcol
        have h2 : ¬ UnknownPragma (curr :: rest) w := by
          rintro ⟨_, _, _, e, -, e', -⟩; cases e; rw [e'] at hcol; revert hcol; decide
        split at h
        · simp [recovered, P.failCurr, P.failToken] at h
          subst h
          exact none' (by simp) h1 h2
        · cases h; exact none' (by simp) h1 h2
      · rw [if_neg hcol, if_neg hcv.2] at h
        by_cases hp : curr.v = b!"#pragma"
        · rw [if_pos hp] at h
          obtain ⟨d, hd, rfl⟩ := Option.map_eq_some_iff.1 h
          obtain ⟨h1, h2⟩ := opPragma_quotes curr rest s.version hcv.1 hp d hd w
          refine ⟨⟨fun a => (h1 a).elim, ?_⟩, h2⟩
          rintro ⟨_, _, e, -, rfl, -, -, e'⟩; cases e; exact (e' hp).elim
        · rw [if_neg hp] at h
          have h2 : ¬ UnknownPragma (curr :: rest) w := by rintro ⟨_, _, _, e, -, e', -⟩; cases e; exact hp e'
          cases hop : opsGet curr.v with
          | none =>
            rw [hop] at h
            simp [recovered, P.failCurr, P.failToken, LineCtx.curr] at h
            subst h
            refine ⟨?_, ⟨by simp, fun a => (h2 a).elim⟩⟩
            simp only [List.mem_singleton, exists_eq_left, DiagKind.parse.injEq, ParseWhy.unknownOpcode.injEq]
            constructor
            · rintro rfl; exact ⟨_, _, rfl, hcv.1, rfl, hop, hcol, hp⟩
            · rintro ⟨_, _, e, -, rfl, -⟩; cases e; rfl
          | some e =>
            rw [hop] at h
            have h1 : ¬ UnknownWord (curr :: rest) w := by rintro ⟨_, _, e, -, rfl, e', -⟩; cases e; rw [hop] at e'; cases e'
            obtain ⟨d, hd, hdone⟩ := parseOp_done addrOk e
              { ts := curr :: rest, i := 1, version := s.version,
                diag := availDiags s.mode (e.minVersion s.mode) s.version curr }
              (by simp) (fun t ht => (hval t ht).2) rfl rfl rfl rfl rfl rfl
            simp only [hd, Option.map_some, Option.some.injEq] at h
            subst h
            have hav : ∀ x ∈ availDiags s.mode (e.minVersion s.mode) s.version curr,
                x.kind ≠ .parse (.unknownOpcode w) ∧ x.kind ≠ .parse (.unknownPragma w) := by
              intro x hx
              unfold availDiags at hx
              rcases List.mem_append.1 hx with hx | hx <;> split at hx <;> first
                | (rw [List.mem_singleton.1 hx]; simp; done)
                | cases hx
            refine none' ?_ h1 h2
            intro x hx
            cases hdone.how with
            | good o ho hlab hops hdiag => rw [hdiag] at hx; exact hav x hx
            | more o ho hlab t ht hops hdiag =>
              rw [hdiag] at hx
              rcases List.mem_append.1 hx with hx | hx
              · exact hav x hx
              · rw [List.mem_singleton.1 hx]; simp [parseDiag]
            | bad why hw t ht hlab hops hdiag =>
              rw [hdiag] at hx
              rcases List.mem_append.1 hx with hx | hx
              · exact hav x hx
              · rw [List.mem_singleton.1 hx]; constructor <;> (intro he; cases he; cases hw)

/-- The lines of a text. -/
theorem quotes_at {env : Env} {src : Bytes} {r : ProcessResult} (h : process env src = some r) (k : Nat) (w : Bytes) :
    ((∃ d ∈ r.diagnostics, d.kind = .parse (.unknownOpcode w) ∧ d.l = k) ↔ UnknownWord (words (tokens src) k) w) ∧
    ((∃ d ∈ r.diagnostics, d.kind = .parse (.unknownPragma w) ∧ d.l = k) ↔ UnknownPragma (words (tokens src) k) w) := by
  obtain ⟨os, hr, ha⟩ := process_run h
  obtain ⟨lds, hl, -, hd, -⟩ := assemble_eq ha
  have hlds := lintDiags_eq _ _ _ hl
  have hline : ∀ (K : DiagKind), (∀ m, K ≠ .lex m) → (∀ x, K ≠ .lint x) →
      ((∃ d ∈ r.diagnostics, d.kind = K ∧ d.l = k) ↔ ∃ o, os[k]? = some o ∧ ∃ x ∈ o.ctx.diag, x.kind = K) := by
    intro K h1 h2
    rw [hd]
    constructor
    · rintro ⟨d, hm, hk, hdl⟩
      rcases List.mem_append.1 hm with hm | hm
      · rcases List.mem_append.1 hm with hm | hm
        · obtain ⟨e, -, rfl⟩ := List.mem_map.1 hm
          exact (h1 _ hk.symm).elim
        · obtain ⟨o, ho, hx⟩ := List.mem_flatMap.1 hm
          obtain ⟨j, hj⟩ := List.mem_iff_getElem?.1 ho
          have hjlt : j < (linesOf src).length := by
            rw [← hr.length]; exact (List.getElem?_eq_some_iff.1 hj).1
          obtain ⟨o', ho', -, hf⟩ := hr.get j _ (List.getElem?_eq_getElem hjlt)
          rw [hj] at ho'
          cases ho'
          obtain ⟨t, ht, e, -⟩ := hf.diagPos d hx
          obtain ⟨h3, h4⟩ := (linesOf_get src j _).1 (List.getElem?_eq_getElem hjlt)
          rw [h4] at ht
          have := ((lineOk (readTokens_seq src) j).mem t ht).1
          have : j = k := by omega
          subst this
          exact ⟨o, hj, d, hx, hk⟩
      · rw [hlds] at hm
        obtain ⟨e, -, rfl⟩ := List.mem_map.1 hm
        exact (h2 _ hk.symm).elim
    · rintro ⟨o, ho, x, hx, hk⟩
      refine ⟨x, List.mem_append_left _ (List.mem_append_right _ (List.mem_flatMap.2 ⟨o, List.mem_of_getElem? ho, hx⟩)), hk, ?_⟩
      have hjlt : k < (linesOf src).length := by
        rw [← hr.length]; exact (List.getElem?_eq_some_iff.1 ho).1
      obtain ⟨o', ho', -, hf⟩ := hr.get k _ (List.getElem?_eq_getElem hjlt)
      rw [ho] at ho'
      cases ho'
      obtain ⟨t, ht, e, -⟩ := hf.diagPos x hx
      obtain ⟨h3, h4⟩ := (linesOf_get src k _).1 (List.getElem?_eq_getElem hjlt)
      rw [h4] at ht
      rw [e]
      exact ((lineOk (readTokens_seq src) k).mem t ht).1
  have hw : ∀ P : List Token → Prop, (∀ l, P l → ∃ t rest, l = t :: rest ∧ t.t = .value) → (P (lineTokens (tokens src) k) ↔ P (words (tokens src) k)) := by
    intro P hP
    unfold lineTokens
    split
    · rename_i e
      constructor
      · intro h1
        obtain ⟨t, rest, e1, e2⟩ := hP _ h1
        have : t ∈ comments (tokens src) k := by rw [e1]; simp
        have := (mem_comments.1 this).2.2
        rw [e2] at this
        cases this
      · intro h1
        obtain ⟨t, rest, e1, e2⟩ := hP _ h1
        rw [e] at e1
        cases e1
    · exact Iff.rfl
  have hP1 : ∀ l, UnknownWord l w → ∃ t rest, l = t :: rest ∧ t.t = .value := by rintro l ⟨t, rest, h1, h2, -⟩; exact ⟨t, rest, h1, h2⟩
  have hP2 : ∀ l, UnknownPragma l w → ∃ t rest, l = t :: rest ∧ t.t = .value := by rintro l ⟨t, t', rest, h1, h2, -⟩; exact ⟨t, _, h1, h2⟩
  rw [hline _ (by simp) (by simp), hline _ (by simp) (by simp)]
  have hlt : ∀ P : List Token → Prop, (∀ l, P l → ∃ t rest, l = t :: rest ∧ t.t = .value) → P (words (tokens src) k) →
      k < lineCount (tokens src) := by
    intro P hP h1
    obtain ⟨t, rest, e1, -⟩ := hP _ h1
    exact words_lt (by rw [e1]; simp)
  have fin : ∀ (K : DiagKind) (P : List Token → Prop), (∀ l, P l → ∃ t rest, l = t :: rest ∧ t.t = .value) →
      (∀ {s : Carry} {line : List Token} {o : LineOut}, LineOk k line → processLine env.addrOk s line = some o → ((∃ x ∈ o.ctx.diag, x.kind = K) ↔ P line)) →
      ((∃ o, os[k]? = some o ∧ ∃ x ∈ o.ctx.diag, x.kind = K) ↔ P (words (tokens src) k)) := by
    intro K P hP hq
    rw [← hw P hP]
    constructor
    · rintro ⟨o, ho, hx⟩
      have hjlt : k < (linesOf src).length := by
        rw [← hr.length]; exact (List.getElem?_eq_some_iff.1 ho).1
      obtain ⟨o', ho', hp, -⟩ := hr.get k _ (List.getElem?_eq_getElem hjlt)
      rw [ho] at ho'
      cases ho'
      obtain ⟨h3, h4⟩ := (linesOf_get src k _).1 (List.getElem?_eq_getElem hjlt)
      rw [h4] at hp
      exact (hq (lineOk (readTokens_seq src) k) hp).1 hx
    · intro h1
      have hk := hlt P hP ((hw P hP).1 h1)
      obtain ⟨o, ho, hp, -⟩ := hr.get k _ ((linesOf_get src k _).2 ⟨hk, rfl⟩)
      exact ⟨o, ho, (hq (lineOk (readTokens_seq src) k) hp).2 h1⟩
  exact ⟨fin _ _ hP1 fun a b => (processLine_quotes a b w).1, fin _ _ hP2 fun a b => (processLine_quotes a b w).2⟩

end Teal
