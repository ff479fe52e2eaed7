import Verif.Lemmas.LineEdit

/-! # Lemmas about changing the version of a program -/

namespace Teal.Lsp

open Teal Teal.Spec Teal.Lsp.Spec Teal.Props

/-- The token `Process` keeps of a version pragma. -/
def lineVtok : List Token → Option Token
  | t :: w :: n :: _ => if t.t = .value ∧ t.v = b!"#pragma" ∧ w.v = b!"version" ∧ (readInt n.v).isSome then some n else none
  | _ => none

theorem opPragma_vtok (curr : Token) (rest : List Token) (v : Nat) : ∀ d, recovered (P.opPragma { ts := curr :: rest, i := 1, version := v }) = some d →
    d.vtok = match rest with
      | w :: n :: _ => if w.v = b!"version" ∧ (readInt n.v).isSome then some n else none
      | _ => none := by
  intro d hd
  cases rest with
  | nil =>
    have h : P.opPragma { ts := [curr], i := 1, version := v } = .fail { ts := [curr], i := 2, version := v, mcrs := [curr], diag := [parseDiag .missingArg curr] } := by
      simp [P.opPragma, P.mustReadPragma, P.bind_apply, P.addMcr, P.mustRead, P.mustReadArg, P.scan,
            P.text, LineCtx.text, LineCtx.curr, P.failPrev, P.failToken, LineCtx.prev, P.pure_apply, parseDiag]
    rw [h] at hd
    cases hd; rfl
  | cons w rest =>
    by_cases hw : w.v = b!"version"
    · cases rest with
      | nil =>
        have h : P.opPragma { ts := [curr, w], i := 1, version := v } = .fail
            { ts := [curr, w], i := 3, version := v, mcrs := [curr, w], diag := [parseDiag .missingArg w] } := by
          simp [P.opPragma, P.mustReadPragma, P.bind_apply, P.addMcr, P.mustRead, P.mustReadArg, P.scan,
            P.text, LineCtx.text, LineCtx.curr, hw, P.mustReadInt, P.failPrev, P.failToken, LineCtx.prev,
            P.pure_apply, parseDiag]
        rw [h] at hd
        cases hd; rfl
      | cons n more =>
        cases hn : readInt n.v with
        | none =>
          have h : P.opPragma { ts := curr :: w :: n :: more, i := 1, version := v } = .fail
              { ts := curr :: w :: n :: more, i := 3, version := v, mcrs := [curr, w],
                diag := [parseDiag .badUint64 n] } := by
            simp [P.opPragma, P.mustReadPragma, P.bind_apply, P.addMcr, P.mustRead, P.mustReadArg, P.scan,
              P.text, LineCtx.text, LineCtx.curr, hw, P.mustReadInt, P.failToken,
              P.pure_apply, parseDiag, P.parseUint64, P.orFail, hn, P.failCurr]
          rw [h] at hd
          cases hd
          simp [hn]
        | some x =>
          by_cases hx : x < 1
          · have h : P.opPragma { ts := curr :: w :: n :: more, i := 1, version := v } = .fail
              { ts := curr :: w :: n :: more, i := 3, version := v, mcrs := [curr, w], nums := [n],
                vtok := some n, diag := [parseDiag .badVersion n] } := by
              simp [P.opPragma, P.mustReadPragma, P.bind_apply, P.addMcr, P.mustRead, P.mustReadArg, P.scan,
                P.text, LineCtx.text, LineCtx.curr, hw, P.mustReadInt, P.failToken,
                P.pure_apply, parseDiag, P.parseUint64, P.orFail, hn, P.failCurr, P.addNum, P.setVtok, Nat.lt_one_iff.1 hx]
            rw [h] at hd
            cases hd
            simp [hn, hw]
          · have h : P.opPragma { ts := curr :: w :: n :: more, i := 1, version := v } = .ok ()
              { ts := curr :: w :: n :: more, i := 3, version := x, mcrs := [curr, w], nums := [n],
                vtok := some n, ops := [.pragma (x % 256)] } := by
              simp [P.opPragma, P.mustReadPragma, P.bind_apply, P.addMcr, P.mustRead, P.mustReadArg, P.scan,
                P.text, LineCtx.text, LineCtx.curr, hw, P.mustReadInt,
                P.pure_apply, P.parseUint64, P.orFail, hn, P.addNum, P.emit, P.setVtok, P.setVersion, Nat.ne_of_gt (Nat.not_lt.1 hx)]
            rw [h] at hd
            cases hd
            simp [hn, hw]
    · have h : P.opPragma { ts := curr :: w :: rest, i := 1, version := v } = .fail
          { ts := curr :: w :: rest, i := 2, version := v, mcrs := [curr],
            diag := [parseDiag (.unknownPragma w.v) w] } := by
        simp [P.opPragma, P.mustReadPragma, P.bind_apply, P.addMcr, P.mustRead, P.mustReadArg, P.scan,
          P.text, LineCtx.text, LineCtx.curr, hw, P.failToken,
          P.pure_apply, parseDiag, P.failCurr]
      rw [h] at hd
      cases hd
      cases rest with
      | nil => rfl
      | cons n more => simp [hw]

theorem lineVtok_other {curr : Token} {rest : List Token} (h : ¬ (curr.t = .value ∧ curr.v = b!"#pragma")) : lineVtok (curr :: rest) = none := by
  match rest with
  | [] => rfl
  | [_] => rfl
  | w :: n :: more =>
    rw [lineVtok, if_neg]
    rintro ⟨h1, h2, -⟩
    exact h ⟨h1, h2⟩

theorem processLine_vtok (addrOk : Bytes → Bool) (s : Carry) (k : Nat) (line : List Token) (hok : LineOk k line) (o : LineOut)
    (h : processLine addrOk s line = some o) : o.ctx.vtok = lineVtok line := by
  cases line with
  | nil => cases h; rfl
  | cons curr rest =>
    unfold processLine at h
    simp only at h
    by_cases hc : curr.t = .comment
    · rw [if_pos hc] at h
      rw [lineVtok_other (by rintro ⟨h, -⟩; rw [hc] at h; cases h)]
      split at h <;> (cases h; rfl)
    · have hval : ∀ t ∈ curr :: rest, t.t = .value ∧ t.v ≠ [] := by
        rcases hok.shape with ⟨c, h1, h2⟩ | h
        · injection h1 with h1; rw [h1] at hc; exact absurd h2 hc
        · exact h
      have hcv := hval curr (by simp)
      rw [if_neg hc] at h
      by_cases hcol : curr.v.getLast? = some chColon
      · have hp : curr.v ≠ b!"#pragma" := by
          intro hp; rw [hp] at hcol; revert hcol; decide
        rw [if_pos hcol] at h
        rw [lineVtok_other (by rintro ⟨-, h⟩; exact hp h)]
        split at h
        · cases h; rfl
        · cases h; rfl
      · rw [if_neg hcol, if_neg hcv.2] at h
        by_cases hp : curr.v = b!"#pragma"
        · rw [if_pos hp] at h
          obtain ⟨d, hd, rfl⟩ := Option.map_eq_some_iff.1 h
          show d.vtok = _
          rw [opPragma_vtok curr rest s.version d hd]
          match rest with
          | [] => rfl
          | [_] => rfl
          | w :: n :: more => simp [lineVtok, hp, hcv.1]
        · rw [if_neg hp] at h
          rw [lineVtok_other (by rintro ⟨-, h⟩; exact hp h)]
          cases hop : opsGet curr.v with
          | none =>
            rw [hop] at h
            cases h; rfl
          | some e =>
            rw [hop] at h
            obtain ⟨d, hd, hdone⟩ := parseOp_done addrOk e
              { ts := curr :: rest, i := 1, version := s.version,
                diag := availDiags s.mode (e.minVersion s.mode) s.version curr }
              (by simp) (fun t ht => (hval t ht).2) rfl rfl rfl rfl rfl rfl
            simp only [hd, Option.map_some] at h
            cases h
            exact hdone.vtok

theorem literal_head {s : Bytes} {n : Nat} (h : IntLiteral s n) : s.head? ≠ some chQuote := by
  cases h with
  | decimal c s ds hc h =>
    cases h with
    | digit _ _ d _ ds hc' =>
      intro he
      rw [Option.some.inj he, show digitValue chQuote = none from by decide] at hc'
      cases hc'
  | octal => simp [chQuote]
  | prefixed => simp [chQuote]

theorem lineVtok_iff {src : Bytes} {k : Nat} {t : Token} : lineVtok (lineTokens (tokens src) k) = some t ↔ VersionWord (tokens src) k t := by
  by_cases hw : words (tokens src) k = []
  · have hc : lineTokens (tokens src) k = comments (tokens src) k := if_pos hw
    rw [hc]
    constructor
    · intro h
      match hcm : comments (tokens src) k with
      | [] => rw [hcm] at h; cases h
      | [_] => rw [hcm] at h; cases h
      | [_, _] => rw [hcm] at h; cases h
      | a :: b :: c :: rest =>
        rw [hcm, lineVtok] at h
        split at h
        · rename_i hp
          have : a ∈ comments (tokens src) k := by rw [hcm]; simp
          have := (List.mem_filter.1 this).2
          rw [hp.1] at this
          simp at this
        · cases h
    · rintro ⟨a, b, rest, n, h, -⟩
      rw [hw] at h; cases h
  · have hc : lineTokens (tokens src) k = words (tokens src) k := if_neg hw
    rw [hc]
    constructor
    · intro h
      match hcm : words (tokens src) k with
      | [] => exact absurd hcm hw
      | [_] => rw [hcm] at h; cases h
      | [_, _] => rw [hcm] at h; cases h
      | a :: b :: c :: rest =>
        rw [hcm, lineVtok] at h
        split at h
        · rename_i hp
          cases h
          obtain ⟨n, hn⟩ := Option.isSome_iff_exists.1 hp.2.2.2
          exact ⟨a, b, rest, n, hcm, hp.2.1, hp.2.2.1, (C11_int_literal _ _).1 hn⟩
        · cases h
    · rintro ⟨a, b, rest, n, h, h1, h2, h3⟩
      have ha : a.t = .value := (mem_words.1 (show a ∈ words (tokens src) k by rw [h]; simp)).2.2
      rw [h, lineVtok, if_pos ⟨ha, h1, h2, by rw [(C11_int_literal _ _).2 h3]; rfl⟩]

theorem last_some {α β : Type} (f : α → Option β) (l : List α) (t : β) : (l.filterMap f).getLast? = some t ↔
    ∃ (k : Nat) (x : α), l[k]? = some x ∧ f x = some t ∧ ∀ (j : Nat) (y : α), k < j → l[j]? = some y → f y = none := by
  induction l with
  | nil => simp
  | cons a l ih =>
    rw [List.filterMap_cons]
    by_cases hn : l.filterMap f = []
    · have hno : ∀ x ∈ l, f x = none := List.filterMap_eq_nil_iff.1 hn
      cases ha : f a with
      | none =>
        simp only [hn, List.getLast?_nil, reduceCtorEq, false_iff]
        rintro ⟨k, x, h1, h2, -⟩
        rcases List.mem_cons.1 (List.mem_of_getElem? h1) with rfl | h
        · rw [ha] at h2; cases h2
        · rw [hno x h] at h2; cases h2
      | some b =>
        simp only [hn, List.getLast?_singleton, Option.some.injEq]
        constructor
        · rintro rfl
          refine ⟨0, a, rfl, ha, fun j y hj hy => ?_⟩
          obtain ⟨i, rfl⟩ : ∃ i, j = i + 1 := ⟨j - 1, by omega⟩
          exact hno y (List.mem_of_getElem? (by simpa using hy))
        · rintro ⟨k, x, h1, h2, -⟩
          rcases List.mem_cons.1 (List.mem_of_getElem? h1) with rfl | h
          · rw [ha] at h2; exact Option.some.inj h2
          · rw [hno x h] at h2; cases h2
    · have hlast : ∀ b, (b :: l.filterMap f).getLast? = (l.filterMap f).getLast? := by
        intro b
        obtain ⟨y, ys, hy⟩ := List.exists_cons_of_ne_nil hn
        rw [hy, List.getLast?_cons_cons]
      refine Iff.trans (b := (l.filterMap f).getLast? = some t) ?_ (ih.trans ?_)
      · cases f a with
        | none => exact Iff.rfl
        | some b => exact Eq.congr_left (hlast b)
      constructor
      · rintro ⟨k, x, h1, h2, h3⟩
        refine ⟨k + 1, x, h1, h2, fun j y hj hy => ?_⟩
        obtain ⟨i, rfl⟩ : ∃ i, j = i + 1 := ⟨j - 1, by omega⟩
        exact h3 i y (by omega) (by simpa using hy)
      · rintro ⟨k, x, h1, h2, h3⟩
        cases k with
        | zero =>
          refine absurd (List.filterMap_eq_nil_iff.2 fun y hy => ?_) hn
          obtain ⟨i, hi⟩ := List.mem_iff_getElem?.1 hy
          exact h3 (i + 1) y (by omega) (by simpa using hi)
        | succ k => exact ⟨k, x, by simpa using h1, h2, fun j y hj hy => h3 (j + 1) y (by omega) (by simpa using hy)⟩

theorem vtok_line {env : Env} {src : Bytes} {r : ProcessResult} (h : process env src = some r) : ∃ os : List LineOut,
    r.versionToken = (os.filterMap (·.ctx.vtok)).getLast? ∧ os.length = lineCount (tokens src) ∧
    ∀ k o, os[k]? = some o → ∀ t, o.ctx.vtok = some t ↔ VersionWord (tokens src) k t := by
  obtain ⟨os, hr, ha⟩ := process_run h
  refine ⟨os, ?_, by rw [hr.length, linesOf_length], ?_⟩
  · unfold assemble at ha
    dsimp only at ha
    obtain ⟨_, _, rfl⟩ := Option.map_eq_some_iff.1 ha
    rfl
  · intro k o ho t
    have hlt : k < lineCount (tokens src) := by
      have := (List.getElem?_eq_some_iff.1 ho).1
      rwa [hr.length, linesOf_length] at this
    obtain ⟨o', h1, hpl, -⟩ := hr.get k _ ((linesOf_get src k _).2 ⟨hlt, rfl⟩)
    rw [ho] at h1
    cases h1
    rw [processLine_vtok env.addrOk _ k _ (lineOk (readTokens_seq src) k) o hpl]
    exact lineVtok_iff

theorem versionWord_lt {src : Bytes} {k : Nat} {t : Token} (h : VersionWord (tokens src) k t) : k < lineCount (tokens src) := by
  obtain ⟨a, b, rest, n, h, -⟩ := h
  exact words_lt (by rw [h]; simp)

/-- The token `Process` keeps is that of the last version pragma. -/
theorem versionToken_iff {env : Env} {src : Bytes} {r : ProcessResult} (h : process env src = some r) (t : Token) :
    r.versionToken = some t ↔ ∃ k, VersionWord (tokens src) k t ∧ ∀ j, k < j → ∀ t', ¬ VersionWord (tokens src) j t' := by
  obtain ⟨os, h1, h2, h3⟩ := vtok_line h
  rw [h1, last_some]
  constructor
  · rintro ⟨k, o, h4, h5, h6⟩
    refine ⟨k, (h3 k o h4 t).1 h5, fun j hj t' ht' => ?_⟩
    have hlt := versionWord_lt ht'
    have hg := List.getElem?_eq_getElem (l := os) (i := j) (by omega)
    have := h6 j _ hj hg
    rw [(h3 j _ hg t').2 ht'] at this
    cases this
  · rintro ⟨k, h4, h5⟩
    have hlt := versionWord_lt h4
    have hg := List.getElem?_eq_getElem (l := os) (i := k) (by omega)
    refine ⟨k, _, hg, (h3 k _ hg t).2 h4, fun j y hj hy => ?_⟩
    cases hv : y.ctx.vtok with
    | none => rfl
    | some t' => exact absurd ((h3 j y hy t').1 hv) (h5 j hj t')

theorem versionToken_none {env : Env} {src : Bytes} {r : ProcessResult} (h : process env src = some r) :
    r.versionToken = none ↔ ∀ j t', ¬ VersionWord (tokens src) j t' := by
  obtain ⟨os, h1, h2, h3⟩ := vtok_line h
  rw [h1, List.getLast?_eq_none_iff, List.filterMap_eq_nil_iff]
  constructor
  · intro h4 j t' ht'
    have hlt := versionWord_lt ht'
    have hg := List.getElem?_eq_getElem (l := os) (i := j) (by omega)
    have := h4 _ (List.mem_of_getElem? hg)
    rw [(h3 j _ hg t').2 ht'] at this
    cases this
  · intro h4 o ho
    obtain ⟨k, hk⟩ := List.mem_iff_getElem?.1 ho
    cases hv : o.ctx.vtok with
    | none => rfl
    | some t' => exact absurd ((h3 k o hk t').1 hv) (h4 k t')

theorem sets_word {src : Bytes} {k v : Nat} (h : SetsVersion ((words (tokens src) k).map Token.v) v) : ∃ t, VersionWord (tokens src) k t := by
  obtain ⟨s, rest, h1, h2, -, h4⟩ := h
  match hw : words (tokens src) k with
  | [] => simp [hw] at h1
  | [_] => simp [hw] at h1
  | [_, _] => simp [hw] at h1
  | a :: b :: c :: rest' =>
    simp only [hw, List.map_cons, List.cons.injEq] at h1
    exact ⟨c, a, b, rest', v, hw, h1.1, h1.2.1, by rw [h1.2.2.1]; exact h2, h4⟩

/-- A pragma in front of the text. -/
theorem insert_version (src : Bytes) (v : Nat) (s : Bytes) (hs : s = b!"#pragma version " ++ (formatUint v ++ [chCR, chLF])) :
    Applied src ⟨onLine 0 0 0, s⟩ (s ++ src) ∧
    (words (tokens (s ++ src)) 0).map Token.v = [b!"#pragma", b!"version", formatUint v] ∧
    (comments (tokens (s ++ src)) 0).map Token.v = [] ∧
    (∀ k, (words (tokens (s ++ src)) (k + 1)).map Token.v = (words (tokens src) k).map Token.v) ∧
    (∀ k, (comments (tokens (s ++ src)) (k + 1)).map Token.v = (comments (tokens src) k).map Token.v) := by
  obtain ⟨err, hl, -⟩ := readTokens_lexes src
  have hsh := lexes_shift hl 1
  rw [Nat.zero_add] at hsh
  obtain ⟨u1, u2, u3, u4⟩ := bare_uint v
  have h0 := Lexes.bare 0 16 (formatUint v) ([chCR, chLF] ++ src) _ _ u1 u2 u3 u4 (.inr ⟨chCR, chLF :: src, rfl, .inr (.inl rfl)⟩)
    (.eol _ _ _ _ _ _ (.inr (.inl rfl)) hsh)
  have h1 := Lexes.bare 0 8 b!"version" (chSpace :: (formatUint v ++ ([chCR, chLF] ++ src))) _ _ (by decide) (by decide) (by decide) (by decide)
    (.inr ⟨chSpace, _, rfl, .inl (.inl rfl)⟩) (.blank _ _ _ _ _ _ (.inl rfl) h0)
  have h2 := Lexes.bare 0 0 b!"#pragma" (chSpace :: (b!"version" ++ chSpace :: (formatUint v ++ ([chCR, chLF] ++ src)))) _ _ (by decide) (by decide) (by decide) (by decide)
    (.inr ⟨chSpace, _, rfl, .inl (.inl rfl)⟩) (.blank _ _ _ _ _ _ (.inl rfl) h1)
  have heq : b!"#pragma" ++ chSpace :: (b!"version" ++ chSpace :: (formatUint v ++ ([chCR, chLF] ++ src))) = s ++ src := by
    rw [hs]; simp [chSpace]
  rw [heq] at h2
  have ht : tokens (s ++ src) = _ := congrArg Prod.fst (readTokens_of_lexes h2)
  dsimp only at ht
  have hmem : ∀ t ∈ (readTokens src).1.map (moveDown 1), t.l ≠ 0 := by
    intro t ht
    obtain ⟨x, -, rfl⟩ := List.mem_map.1 ht
    simp [moveDown]
  refine ⟨⟨0, 0, 0, 0, 0, 0, rfl, .there _ ?_, .there _ ?_, Nat.le_refl _, by simp⟩, ?_, ?_, ?_, ?_⟩
  · exact at_here (pre := []) rfl rfl (by simp)
  · exact at_here (pre := []) rfl rfl (by simp)
  · rw [ht]
    unfold words
    simp only [List.filter_cons, decide_true, Bool.and_self, if_true, reduceCtorEq, decide_false, Bool.and_false, Bool.false_eq_true, if_false]
    rw [List.filter_eq_nil_iff.2 fun t ht => by simp [hmem t ht]]
    rfl
  · rw [ht]
    unfold comments
    simp only [List.filter_cons, decide_true, Bool.and_self, if_true, reduceCtorEq, decide_false, Bool.and_false, Bool.false_eq_true, if_false]
    rw [List.filter_eq_nil_iff.2 fun t ht => by simp [hmem t ht]]
    rfl
  · intro k
    have : words (tokens (s ++ src)) (k + 1) = words ((readTokens src).1.map (moveDown 1)) (k + 1) := by
      rw [ht]
      unfold words
      simp [List.filter_cons]
    rw [this, words_moveDown, List.map_map]
    rfl
  · intro k
    have : comments (tokens (s ++ src)) (k + 1) = ((comments (tokens src) k).map (moveDown 1)) := by
      rw [ht]
      unfold comments
      simp only [List.filter_cons, Nat.zero_ne_add_one, decide_false, Bool.false_and, Bool.false_eq_true, if_false]
      rw [List.filter_map]
      congr 1
      refine List.filter_congr fun t _ => ?_
      rw [Bool.eq_iff_iff]
      simp [moveDown]
      exact fun _ => ⟨of_decide_eq_true, decide_eq_true⟩
    rw [this, List.map_map]
    rfl

end Teal.Lsp
