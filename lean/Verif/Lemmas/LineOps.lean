import Verif.Lemmas.Words
import Verif.Lemmas.Process

/-!
# A line is parsed to what its words say
-/

namespace Teal
open Spec P

/-- The version a pragma sets, from the texts of the words. -/
def pragmaOf : List Bytes → Option Nat
  | _ :: w :: n :: _ =>
    if w = b!"version" then
      match readInt n with
      | some v => if v < 1 then none else some v
      | none => none
    else none
  | _ => none

theorem pragmaOf_eq (ts : List Token) : pragmaVersion? ts = pragmaOf (ts.map Token.v) := by
  match ts with
  | [] => rfl
  | [_] => rfl
  | [_, _] => rfl
  | _ :: _ :: _ :: _ => rfl

/-- What an instruction is read to. -/
def readOps : Option (Op × List Bytes) → List Op
  | some (o, []) => [o]
  | some (o, _ :: _) => [o, .empty]
  | none => [.empty]

/-- What a line of words is read to. -/
def opsOf (addrOk : Bytes → Bool) (ver : Nat) : List Bytes → List Op
  | [] => [.empty]
  | w :: ws =>
    if w.getLast? = some chColon then
      if w.dropLast = [] then [.empty] else [.label w.dropLast]
    else if w = b!"#pragma" then
      match pragmaOf (w :: ws) with
      | some n => [.pragma (n % 256)]
      | none => [.empty]
    else
      match opsGet w with
      | some e => readOps (evalShape addrOk e.shape ver ws)
      | none => [.empty]

/-- The words of a line. -/
def lineWords (line : List Token) : List Bytes := (line.filter fun t => decide (t.t = .value)).map Token.v

theorem lineWords_values {line : List Token} (h : ∀ t ∈ line, t.t = .value) : lineWords line = line.map Token.v := by
  unfold lineWords
  rw [List.filter_eq_self.2]
  intro t ht; simp [h t ht]

theorem processLine_instr (addrOk : Bytes → Bool) (s : Carry) (k : Nat) (curr : Token) (rest : List Token) (e : OpEntry)
    (hok : LineOk k (curr :: rest)) (hc : curr.t = .value) (he : opsGet curr.v = some e) (o : LineOut)
    (h : processLine addrOk s (curr :: rest) = some o) :
    WordsEnd (curr :: rest) (availDiags s.mode (e.minVersion s.mode) s.version curr) o.ctx
      (evalShape addrOk e.shape s.version (rest.map Token.v)) := by
  have hval : ∀ t ∈ curr :: rest, t.t = .value ∧ t.v ≠ [] := by
    rcases hok.shape with ⟨c, h1, h2⟩ | h
    · injection h1 with h1; rw [h1] at hc; rw [hc] at h2; cases h2
    · exact h
  have hn := opsList_names e (opsGet_mem he).1
  rw [(opsGet_mem he).2] at hn
  unfold processLine at h
  simp only at h
  rw [if_neg (by rw [hc]; decide), if_neg hn.1, if_neg hn.2.1, if_neg hn.2.2, he] at h
  simp only at h
  obtain ⟨d, h1, h2⟩ := parseOp_words addrOk e { ts := curr :: rest, i := 1, version := s.version, diag := availDiags s.mode (e.minVersion s.mode) s.version curr }
    (by simp) (fun t ht => (hval t ht).2) rfl rfl
  rw [h1] at h
  simp only [Option.map_some, Option.some.injEq] at h
  subst h
  exact h2

theorem processLine_ops (addrOk : Bytes → Bool) (s : Carry) (k : Nat) (line : List Token) (hok : LineOk k line) (o : LineOut)
    (h : processLine addrOk s line = some o) : o.ctx.ops = opsOf addrOk s.version (lineWords line) := by
  cases line with
  | nil => injection h with h; subst h; rfl
  | cons curr rest =>
    by_cases hc : curr.t = .comment
    · have hrest : rest = [] := by
        rcases hok.shape with ⟨c, h1, -⟩ | h
        · injection h1
        · have := (h curr (by simp)).1
          rw [hc] at this; cases this
      subst hrest
      have hw : lineWords [curr] = [] := by simp [lineWords, hc]
      rw [hw]
      unfold processLine at h
      simp only [if_pos hc] at h
      split at h <;> (injection h with h; subst h; rfl)
    · have hval : ∀ t ∈ curr :: rest, t.t = .value ∧ t.v ≠ [] := by
        rcases hok.shape with ⟨c, h1, h2⟩ | h
        · injection h1 with h1; rw [h1] at hc; exact absurd h2 hc
        · exact h
      rw [lineWords_values fun t ht => (hval t ht).1, List.map_cons, opsOf]
      by_cases hcol : curr.v.getLast? = some chColon
      · rw [if_pos hcol]
        unfold processLine at h
        simp only [if_neg hc, if_pos hcol] at h
        split at h
        · rename_i hn
          rw [if_pos hn]
          simp only [Option.map_eq_some_iff] at h
          obtain ⟨c, h1, rfl⟩ := h
          injection h1 with h1
          rw [← h1]; rfl
        · rename_i hn
          rw [if_neg hn]
          injection h with h; subst h; rfl
      · rw [if_neg hcol]
        by_cases hp : curr.v = b!"#pragma"
        · rw [if_pos hp]
          unfold processLine at h
          simp only [if_neg hc, if_neg hcol, if_neg (hval curr (by simp)).2, if_pos hp] at h
          have hend := opPragma_end curr rest s.version
          generalize P.opPragma _ = out at hend h
          cases hend with
          | good d n hn hts hvr hops =>
            rw [pragmaOf_eq, List.map_cons] at hn
            rw [hn]
            simp only [recovered, Option.map_some, Option.some.injEq] at h
            subst h
            exact hops
          | bad d hn hts hvr hops =>
            rw [pragmaOf_eq, List.map_cons] at hn
            rw [hn]
            simp only [recovered, Option.map_some, Option.some.injEq] at h
            subst h
            show d.ops ++ [_] = _
            rw [hops]; rfl
        · rw [if_neg hp]
          cases he : opsGet curr.v with
          | some e =>
            have h1 := processLine_instr addrOk s k curr rest e hok (hval curr (by simp)).1 he o h
            dsimp only
            generalize evalShape addrOk e.shape s.version (rest.map Token.v) = r at h1 ⊢
            match r with
            | none => exact h1.1
            | some (o, []) => exact h1.1
            | some (o, _ :: _) => exact h1.1
          | none =>
            unfold processLine at h
            simp only [if_neg hc, if_neg hcol, if_neg (hval curr (by simp)).2, if_neg hp, he] at h
            simp only [Option.map_eq_some_iff] at h
            obtain ⟨c, h1, rfl⟩ := h
            injection h1 with h1
            rw [← h1]; rfl

theorem lineWords_eq (src : Bytes) (k : Nat) :
    lineWords (lineTokens (readTokens src).1 k) = (words (readTokens src).1 k).map Token.v := by
  unfold lineTokens
  by_cases hw : words (readTokens src).1 k = []
  · rw [if_pos hw, hw]
    unfold lineWords
    rw [List.filter_eq_nil_iff.2, List.map_nil]
    intro t ht
    have := (mem_comments.1 ht).2.2
    simp [this]
  · rw [if_neg hw]
    exact lineWords_values fun t ht => (mem_words.1 ht).2.2

/-- What line `k` is read to. -/
theorem line_ops (addrOk : Bytes → Bool) (src : Bytes) (os : List LineOut) (hr : Run addrOk {} (linesOf src) os) (k : Nat)
    (hk : k < lineCount (readTokens src).1) :
    ∃ o, os[k]? = some o ∧
      o.ctx.ops = opsOf addrOk (carryAt {} os k).version ((words (readTokens src).1 k).map Token.v) := by
  obtain ⟨o, h1, h2, -⟩ := hr.get k _ ((linesOf_get src k _).2 ⟨hk, rfl⟩)
  refine ⟨o, h1, ?_⟩
  rw [processLine_ops addrOk _ k _ (lineOk (readTokens_seq src) k) o h2, lineWords_eq]

end Teal
