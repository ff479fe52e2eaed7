import Verif.Props.Process
import Verif.Props.Lexer

/-!
# Properties C19 and C22–C25: `Process`, continued
-/

namespace Teal.Props
open Spec

/-! ## C22, C23 -/

/-- The opcode table of the code agrees with the reference, `args` excepted. -/
theorem docOps_table : ∀ d ∈ docOps, d.name ≠ b!"args" →
    ((opsGet d.name).map fun e => (e.minVersion .app, e.minVersion .sig)) =
      some (d.app.getD 0, d.sig.getD 0) ∧ d.app ≠ some 0 ∧ d.sig ≠ some 0 := by decide +kernel

theorem docOps_names : ∀ e ∈ opsList, ∃ d ∈ docOps, d.name = e.name := by decide +kernel

theorem docOps_plain : ∀ d ∈ docOps, (opsGet d.name).isSome = true ∧
    d.name.getLast? ≠ some chColon := by decide +kernel

theorem avail_diags {env : Env} {src : Bytes} {r : ProcessResult} {os : List LineOut}
    (hr : Run env.addrOk {} (linesOf src) os)
    (ha : assemble env (readTokens src).2 (linesOf src) os = some r) (d : Diag)
    (hk : d.kind.isAvail = true) :
    d ∈ r.diagnostics ↔ ∃ k t e, k < lineCount (tokens src) ∧
      instrOf (lineTokens (tokens src) k) = some (t, e) ∧
      d ∈ availDiags (carryAt {} os k).mode (e.minVersion (carryAt {} os k).mode) (carryAt {} os k).version t := by
  obtain ⟨lds, hl, hlist, hd, -⟩ := assemble_eq ha
  have h1 : d ∈ r.diagnostics ↔ ∃ o ∈ os, d ∈ o.ctx.diag := by
    rw [hd]
    simp only [List.mem_append, List.mem_flatMap]
    constructor
    · rintro ((h | h) | h)
      · obtain ⟨e, -, rfl⟩ := List.mem_map.1 h; cases hk
      · exact h
      · rw [lintDiags_eq _ _ _ hl] at h
        obtain ⟨e, -, rfl⟩ := List.mem_map.1 h; cases hk
    · exact fun h => Or.inl (Or.inr h)
  rw [h1]
  constructor
  · rintro ⟨o, ho, hmem⟩
    obtain ⟨k, hk'⟩ := List.mem_iff_getElem?.1 ho
    have hlt : k < lineCount (tokens src) := by
      have := (List.getElem?_eq_some_iff.1 hk').1
      rw [hr.length, linesOf_length] at this
      exact this
    obtain ⟨o', ho', -, hf⟩ := hr.get k _ ((linesOf_get src k _).2 ⟨hlt, rfl⟩)
    rw [hk'] at ho'
    injection ho' with ho'
    subst ho'
    have hm : d ∈ o.ctx.diag.filter (·.kind.isAvail) := List.mem_filter.2 ⟨hmem, hk⟩
    rw [hf.avail] at hm
    cases hi : instrOf (lineTokens (readTokens src).1 k) with
    | none => rw [hi] at hm; simp at hm
    | some te =>
      rw [hi] at hm
      exact ⟨k, te.1, te.2, hlt, hi, hm⟩
  · rintro ⟨k, t, e, hlt, hi, hm⟩
    obtain ⟨o, ho, -, hf⟩ := hr.get k _ ((linesOf_get src k _).2 ⟨hlt, rfl⟩)
    refine ⟨o, List.mem_of_getElem? ho, ?_⟩
    have : d ∈ o.ctx.diag.filter (·.kind.isAvail) := by
      rw [hf.avail, hi]; exact hm
    exact (List.mem_filter.1 this).1

theorem instrOf_words {src : Bytes} {k : Nat} {t : Token} {e : OpEntry} :
    instrOf (lineTokens (tokens src) k) = some (t, e) ↔
      (words (tokens src) k).head? = some t ∧ opsGet t.v = some e := by
  constructor
  · intro h
    cases hl : lineTokens (tokens src) k with
    | nil => rw [hl] at h; cases h
    | cons a rest =>
      rw [hl, instrOf] at h
      split at h
      · rename_i hv
        rw [Option.map_eq_some_iff] at h
        obtain ⟨x, hx, he⟩ := h
        injection he with h1 h2
        subst h1; subst h2
        rw [lineTokens_head _ k a rest hl hv]
        exact ⟨rfl, hx⟩
      · cases h
  · rintro ⟨h1, h2⟩
    cases hw : words (tokens src) k with
    | nil => rw [hw] at h1; cases h1
    | cons a rest =>
      rw [hw] at h1
      injection h1 with h1
      subst h1
      obtain ⟨h3, h4, -⟩ := lineTokens_words _ k a rest hw
      rw [h3, instrOf, if_pos h4, h2]; rfl

theorem head_unique {src : Bytes} {k j : Nat} {t u : Token}
    (h1 : (words (tokens src) k).head? = some t) (h2 : (words (tokens src) j).head? = some u)
    (h : t.l = u.l) : k = j ∧ t = u := by
  have a := (mem_words.1 (List.mem_of_mem_head? h1)).2.1
  have b := (mem_words.1 (List.mem_of_mem_head? h2)).2.1
  have : k = j := by omega
  subst this
  exact ⟨rfl, Option.some.inj (h1.symm.trans h2)⟩

/-- The diagnostics about availability at the first word of a line. -/
theorem avail_at {env : Env} {src : Bytes} {r : ProcessResult} (h : process env src = some r)
    {k V : Nat} (hV : VersionAt (tokens src) k V) {sig : Bool} (hsig : sig = true ↔ SigAt (tokens src) k)
    {t : Token} (ht : (words (tokens src) k).head? = some t) {d : DocOp} (hd : d ∈ docOps)
    (hn : d.name = t.v) (hargs : d.name ≠ b!"args") (x : Diag) (hx : x.kind.isAvail = true)
    (hxl : x.l = k) :
    x ∈ r.diagnostics ↔ x ∈ availDiags (if sig then .sig else .app) ((d.since sig).getD 0) V t := by
  obtain ⟨os, hr, ha⟩ := process_run h
  have hlt : k < lineCount (tokens src) := words_lt (fun h => by rw [h] at ht; cases ht)
  have hver := (carry_version env.addrOk src os hr k (Nat.le_of_lt hlt) V).1 hV
  have hmode := carry_mode env.addrOk src os hr k (Nat.le_of_lt hlt)
  rw [avail_diags hr ha x hx]
  have htab := docOps_table d hd hargs
  obtain ⟨e, he, hee⟩ := Option.map_eq_some_iff.1 htab.1
  injection hee with h1 h2
  have hmin : e.minVersion (carryAt {} os k).mode = (d.since sig).getD 0 := by
    unfold DocOp.since
    cases hm : (carryAt {} os k).mode with
    | sig =>
      have : sig = true := hsig.2 (hmode.1 hm)
      rw [if_pos this]; exact h2
    | app =>
      have : ¬ sig = true := fun hs => by
        have := hmode.2 (hsig.1 hs); rw [hm] at this; cases this
      rw [if_neg this]; exact h1
  have hmd : (carryAt {} os k).mode = if sig then .sig else .app := by
    cases hm : (carryAt {} os k).mode with
    | sig => rw [if_pos (hsig.2 (hmode.1 hm))]
    | app => rw [if_neg (fun hs => by have := hmode.2 (hsig.1 hs); rw [hm] at this; cases this)]
  rw [hn] at he
  constructor
  · rintro ⟨j, u, e', hj, hi, hm⟩
    obtain ⟨hu, hu'⟩ := instrOf_words.1 hi
    have hul : x.l = u.l := by
      unfold availDiags at hm
      rw [List.mem_append] at hm
      rcases hm with hm | hm <;> split at hm <;> simp at hm <;> rw [hm]
    have htl := (mem_words.1 (List.mem_of_mem_head? ht)).2.1
    obtain ⟨rfl, rfl⟩ := head_unique ht hu (by omega)
    rw [he] at hu'
    injection hu' with hu'
    subst hu'
    rw [hmin, hmd, ← hver] at hm
    exact hm
  · intro hm
    refine ⟨k, t, e, hlt, instrOf_words.2 ⟨ht, he⟩, ?_⟩
    rw [hmin, hmd, ← hver]
    exact hm

theorem since_pos {d : DocOp} (hd : d ∈ docOps) (hargs : d.name ≠ b!"args") (sig : Bool) :
    d.since sig ≠ some 0 := by
  have := docOps_table d hd hargs
  unfold DocOp.since
  split
  · exact this.2.2
  · exact this.2.1

/-- **C22** (partial: `args` is excluded, see `C22_false`.)  A version diagnostic for the
instruction on line `k` is reported exactly when the reference introduces it, in the mode of the
line, in a version later than the version in force; and the versions it names are these two. -/
theorem C22_version_partial (env : Env) (src : Bytes) (r : ProcessResult) (h : process env src = some r)
    (k V : Nat) (hV : VersionAt (tokens src) k V) (sig : Bool) (hsig : sig = true ↔ SigAt (tokens src) k)
    (t : Token) (ht : (words (tokens src) k).head? = some t) (d : DocOp) (hd : d ∈ docOps)
    (hn : d.name = t.v) (hargs : d.name ≠ b!"args") (min cur : Nat) :
    ⟨.version min cur, t.l, t.b, t.e⟩ ∈ r.diagnostics ↔ d.since sig = some min ∧ V < min ∧ cur = V := by
  have htl := (mem_words.1 (List.mem_of_mem_head? ht)).2.1
  rw [avail_at h hV hsig ht hd hn hargs _ rfl htl]
  have hpos := since_pos hd hargs sig
  unfold availDiags
  rw [List.mem_append]
  cases hs : d.since sig with
  | none => simp
  | some m =>
    have hm : m ≠ 0 := fun h0 => hpos (by rw [hs, h0])
    simp only [Option.getD_some, Option.some.injEq, if_neg hm, List.not_mem_nil, false_or]
    split
    · rename_i hgt
      simp only [List.mem_singleton, Diag.mk.injEq, DiagKind.version.injEq, and_true]
      constructor
      · rintro ⟨rfl, rfl⟩; exact ⟨rfl, hgt, rfl⟩
      · rintro ⟨rfl, _, rfl⟩; exact ⟨rfl, rfl⟩
    · rename_i hgt
      simp only [List.not_mem_nil, false_iff]
      rintro ⟨rfl, h, -⟩; omega

/-- **C22**, **C23** There are no other diagnostics about versions or modes: each is at the first
word of a line, and that word is an opcode. -/
theorem C22_only (env : Env) (src : Bytes) (r : ProcessResult) (h : process env src = some r)
    (x : Diag) (hx : x ∈ r.diagnostics) (hk : (∃ m, x.kind = .mode m) ∨ ∃ min cur, x.kind = .version min cur) :
    ∃ k t, (words (tokens src) k).head? = some t ∧ x.l = k ∧ x.b = t.b ∧ x.e = t.e ∧
      ∃ d ∈ docOps, d.name = t.v := by
  obtain ⟨os, hr, ha⟩ := process_run h
  have hav : x.kind.isAvail = true := by
    rcases hk with ⟨m, hk⟩ | ⟨m, c, hk⟩ <;> rw [hk] <;> rfl
  obtain ⟨k, t, e, hlt, hi, hm⟩ := (avail_diags hr ha x hav).1 hx
  obtain ⟨ht, he⟩ := instrOf_words.1 hi
  obtain ⟨he1, he2⟩ := opsGet_mem he
  obtain ⟨d, hd, hdn⟩ := docOps_names e he1
  have htl := (mem_words.1 (List.mem_of_mem_head? ht)).2.1
  have hxe : x.l = t.l ∧ x.b = t.b ∧ x.e = t.e := by
    unfold availDiags at hm
    rw [List.mem_append] at hm
    rcases hm with hm | hm <;> split at hm <;> simp at hm <;> rw [hm] <;> exact ⟨rfl, rfl, rfl⟩
  exact ⟨k, t, ht, by omega, hxe.2.1, hxe.2.2, d, hd, hdn.trans he2⟩

/-- **C22** (partial: `args` is excluded.)  The versions the editor suggests: for the instruction
on line `k` a version is suggested exactly when the version diagnostic is reported, and it is the
version that introduces the instruction, the smallest one that makes it available. -/
theorem C22_suggestion_partial (env : Env) (src : Bytes) (r : ProcessResult)
    (h : process env src = some r)
    (k V : Nat) (hV : VersionAt (tokens src) k V) (sig : Bool) (hsig : sig = true ↔ SigAt (tokens src) k)
    (t : Token) (ht : (words (tokens src) k).head? = some t) (d : DocOp) (hd : d ∈ docOps)
    (hn : d.name = t.v) (hargs : d.name ≠ b!"args") (min : Nat) :
    (∃ v ∈ r.versions, v.l = k ∧ v.version = min) ↔ d.since sig = some min ∧ V < min := by
  obtain ⟨os, hr, ha⟩ := process_run h
  obtain ⟨lds, -, -, -, -, -, -, -, hvers, -⟩ := assemble_eq ha
  have hlt : k < lineCount (tokens src) := words_lt (fun h => by rw [h] at ht; cases ht)
  have hver := (carry_version env.addrOk src os hr k (Nat.le_of_lt hlt) V).1 hV
  have hmode := carry_mode env.addrOk src os hr k (Nat.le_of_lt hlt)
  have htab := docOps_table d hd hargs
  have hpos := since_pos hd hargs sig
  obtain ⟨e, he, hee⟩ := Option.map_eq_some_iff.1 htab.1
  injection hee with h1 h2
  have hmin : e.minVersion (carryAt {} os k).mode = (d.since sig).getD 0 := by
    unfold DocOp.since
    cases hm : (carryAt {} os k).mode with
    | sig =>
      have : sig = true := hsig.2 (hmode.1 hm)
      rw [if_pos this]; exact h2
    | app =>
      have : ¬ sig = true := fun hs => by
        have := hmode.2 (hsig.1 hs); rw [hm] at this; cases this
      rw [if_neg this]; exact h1
  rw [hn] at he
  have htl := (mem_words.1 (List.mem_of_mem_head? ht)).2.1
  rw [hvers]
  have hsome : ∀ m, d.since sig = some m → e.minVersion (carryAt {} os k).mode = m := by
    intro m hm; rw [hmin, hm]; rfl
  constructor
  · rintro ⟨v, hv, hvl, rfl⟩
    obtain ⟨o, ho, hov⟩ := List.mem_filterMap.1 hv
    obtain ⟨j, hj⟩ := List.mem_iff_getElem?.1 ho
    have hjlt : j < lineCount (tokens src) := by
      have := (List.getElem?_eq_some_iff.1 hj).1
      rw [hr.length, linesOf_length] at this
      exact this
    obtain ⟨o', ho', -, hf⟩ := hr.get j _ ((linesOf_get src j _).2 ⟨hjlt, rfl⟩)
    rw [hj] at ho'
    injection ho' with ho'
    subst ho'
    rw [hf.ver] at hov
    cases hi : instrOf (lineTokens (readTokens src).1 j) with
    | none => rw [hi] at hov; cases hov
    | some te =>
      rw [hi] at hov
      simp only at hov
      obtain ⟨hu, hu'⟩ := instrOf_words.1 hi
      split at hov
      · rename_i hgt
        injection hov with hov
        subst hov
        simp only at hvl
        obtain ⟨rfl, rfl⟩ := head_unique ht hu (by omega)
        rw [he] at hu'
        injection hu' with hu'
        rw [← hu'] at hgt ⊢
        rw [hmin, ← hver] at hgt
        simp only
        rw [hmin]
        cases hs : d.since sig with
        | none => rw [hs] at hgt; simp at hgt
        | some m => rw [hs] at hgt; exact ⟨rfl, hgt⟩
      · cases hov
  · rintro ⟨hs, hlt'⟩
    obtain ⟨o, ho, -, hf⟩ := hr.get k _ ((linesOf_get src k _).2 ⟨hlt, rfl⟩)
    have hv := hf.ver
    rw [instrOf_words.2 ⟨ht, he⟩] at hv
    simp only at hv
    rw [hsome min hs, ← hver, if_pos hlt'] at hv
    exact ⟨_, List.mem_filterMap.2 ⟨o, List.mem_of_getElem? ho, hv⟩, htl, rfl⟩

/-- **C23** (partial: `args` is excluded, see `C22_false`.)  A mode diagnostic for the instruction
on line `k` is reported exactly when the reference does not have it in the mode of the line, and
names that mode. -/
theorem C23_mode_partial (env : Env) (src : Bytes) (r : ProcessResult) (h : process env src = some r)
    (k : Nat) (sig : Bool) (hsig : sig = true ↔ SigAt (tokens src) k)
    (t : Token) (ht : (words (tokens src) k).head? = some t) (d : DocOp) (hd : d ∈ docOps)
    (hn : d.name = t.v) (hargs : d.name ≠ b!"args") (m : ProgramMode) :
    ⟨.mode m, t.l, t.b, t.e⟩ ∈ r.diagnostics ↔ d.since sig = none ∧ m = if sig then .sig else .app := by
  have htl := (mem_words.1 (List.mem_of_mem_head? ht)).2.1
  obtain ⟨os, hr, ha⟩ := process_run h
  have hlt : k < lineCount (tokens src) := words_lt (fun h => by rw [h] at ht; cases ht)
  have hV := (carry_version env.addrOk src os hr k (Nat.le_of_lt hlt) _).2 rfl
  rw [avail_at h hV hsig ht hd hn hargs _ rfl htl]
  have hpos := since_pos hd hargs sig
  unfold availDiags
  rw [List.mem_append]
  cases hs : d.since sig with
  | none => simp
  | some m =>
    have hm : m ≠ 0 := fun h0 => hpos (by rw [hs, h0])
    simp only [Option.getD_some, if_neg hm, List.not_mem_nil, false_or]
    split <;> simp

/-- The version in force can be computed in an example. -/
example : VersionAt (tokens b!"#pragma version 3\nlog") 1 3 :=
  .set 0 3 ⟨b!"3", [], by decide +kernel, (parseUint0_iff 64 (by decide) _ _).1
    (by decide +kernel : parseUint0 64 b!"3" = some 3) |>.1, by decide, by decide⟩

example : ∃ r, process sampleEnv b!"#pragma version 3\nlog" = some r ∧
    r.diagnostics.map (fun d => (d.kind, d.l)) = [(.version 5 3, 1)] ∧
    r.versions.map (fun v => (v.l, v.version)) = [(1, 5)] :=
  ⟨(process sampleEnv b!"#pragma version 3\nlog").get (by decide +kernel), by decide +kernel,
    by decide +kernel, by decide +kernel⟩

example : ∃ r, process sampleEnv b!"// #pragma mode logicsig\nlog" = some r ∧
    r.diagnostics.map (fun d => (d.kind, d.l)) = [(.mode .sig, 1)] :=
  ⟨(process sampleEnv b!"// #pragma mode logicsig\nlog").get (by decide +kernel), by decide +kernel,
    by decide +kernel⟩

/-- **C22 and C23 are false of the code** for `args`, which exists only in logic signatures: it is
accepted in an application at version 5, and rejected in a logic signature at version 5. -/
theorem C22_false :
    (∃ d ∈ docOps, d.name = b!"args" ∧ d.app = none ∧ d.sig = some 5) ∧
    (∃ r, process sampleEnv b!"#pragma version 5\nargs" = some r ∧ r.diagnostics = []) ∧
    (∃ r, process sampleEnv b!"// #pragma mode logicsig\n#pragma version 5\nargs" = some r ∧
      r.diagnostics.map (fun d => (d.kind, d.l)) = [(.mode .sig, 2)]) := by
  refine ⟨by decide +kernel, ⟨(process sampleEnv b!"#pragma version 5\nargs").get (by decide +kernel),
    by decide +kernel, by decide +kernel⟩,
    ⟨(process sampleEnv b!"// #pragma mode logicsig\n#pragma version 5\nargs").get (by decide +kernel),
    by decide +kernel, by decide +kernel⟩⟩

/-! ## C24 -/

theorem pragma_line {addrOk : Bytes → Bool} {s : Carry} {t : Token} {rest : List Token} {o : LineOut}
    (hv : t.t = .value) (hp : t.v = b!"#pragma") (h : processLine addrOk s (t :: rest) = some o) :
    (∃ n, pragmaVersion? (t :: rest) = some n ∧ o.ctx.diag = [] ∧ o.ctx.ops = [.pragma (n % 256)]) ∨
    (pragmaVersion? (t :: rest) = none ∧ ∃ why u, u ∈ t :: rest ∧ o.ctx.diag = [parseDiag why u]) := by
  rw [processLine] at h
  simp only [hv, hp, reduceCtorEq, if_false] at h
  rw [if_neg (by decide +kernel), if_pos trivial,
    Option.map_eq_some_iff] at h
  obtain ⟨c, hc, rfl⟩ := h
  have hend := opPragma_end t rest s.version
  revert hc hend
  generalize P.opPragma { ts := t :: rest, i := 1, version := s.version } = out
  intro hc hend
  revert hc
  cases hend with
  | good d n h1 hts hv hops hdiag _ _ _ _ _ _ =>
    intro hc
    simp only [recovered, Option.some.injEq] at hc
    subst hc
    exact Or.inl ⟨n, h1, hdiag, hops⟩
  | bad d h1 hts hv hops why u hu hw hdiag _ _ _ _ _ _ =>
    intro hc
    simp only [recovered, Option.some.injEq] at hc
    subst hc
    exact Or.inr ⟨h1, why, u, hu, hdiag⟩

/-- **C24** (partial: see `C24_false`.)  A `#pragma` line is accepted, without a diagnostic of the
parser, exactly when it is `#pragma version` and an integer literal for an `N ≥ 1` (that fits 64
bits); after the last line the version is the one in force there; and the listing records `N`
modulo 256. -/
theorem C24_pragma_partial (env : Env) (src : Bytes) (r : ProcessResult) (h : process env src = some r) :
    (∀ k t, (words (tokens src) k).head? = some t → t.v = b!"#pragma" →
      ((∀ d ∈ r.diagnostics, d.l = k → ∀ w, d.kind ≠ .parse w) ↔
        ∃ n, SetsVersion ((words (tokens src) k).map Token.v) n)) ∧
    VersionAt (tokens src) (lineCount (tokens src)) r.version ∧
    (NoSurplus r → ∀ k n, SetsVersion ((words (tokens src) k).map Token.v) n →
      r.listing[k]? = some (.pragma (n % 256))) := by
  obtain ⟨os, hr, ha⟩ := process_run h
  obtain ⟨lds, hl, hlist, hd, -, -, -, -, -, -, hv, -⟩ := assemble_eq ha
  refine ⟨?_, ?_, ?_⟩
  · intro k t ht hp
    have hlt : k < lineCount (tokens src) := words_lt (fun h => by rw [h] at ht; cases ht)
    obtain ⟨o, ho, hpl, hf⟩ := hr.get k _ ((linesOf_get src k _).2 ⟨hlt, rfl⟩)
    cases hw : words (tokens src) k with
    | nil => rw [hw] at ht; cases ht
    | cons a rest =>
      rw [hw] at ht
      injection ht with ht
      subst ht
      obtain ⟨h1, h2, h3⟩ := lineTokens_words _ k a rest hw
      have hlv : lineVersion? (lineTokens (tokens src) k) = pragmaVersion? (a :: rest) := by
        rw [h1, lineVersion?, if_pos ⟨h2, hp⟩]
      rw [h1] at hpl
      rw [← hw]
      constructor
      · intro hno
        rcases pragma_line h2 hp hpl with ⟨n, hn, -⟩ | ⟨hn, why, u, hu, hdiag⟩
        · exact ⟨n, (lineVersion?_iff _ _ _).1 (hlv.trans hn)⟩
        · have hmem : parseDiag why u ∈ r.diagnostics := by
            rw [hd]
            simp only [List.mem_append]
            exact Or.inl (Or.inr (List.mem_flatMap.2 ⟨o, List.mem_of_getElem? ho, by rw [hdiag]; simp⟩))
          have hul : u.l = k := (mem_lineTokens (src := src) (k := k) (h1 ▸ hu)).2
          exact absurd rfl (hno _ hmem hul why)
      · rintro ⟨n, hn⟩ d hmem hdl w hkind
        have hpv : pragmaVersion? (a :: rest) = some n := hlv ▸ (lineVersion?_iff _ _ _).2 hn
        rw [hd] at hmem
        simp only [List.mem_append] at hmem
        rcases hmem with (hmem | hmem) | hmem
        · obtain ⟨e, -, rfl⟩ := List.mem_map.1 hmem; cases hkind
        · obtain ⟨o', ho', hmem⟩ := List.mem_flatMap.1 hmem
          obtain ⟨j, hj⟩ := List.mem_iff_getElem?.1 ho'
          have hjlt : j < lineCount (tokens src) := by
            have := (List.getElem?_eq_some_iff.1 hj).1
            rw [hr.length, linesOf_length] at this
            exact this
          obtain ⟨o'', ho'', -, hf'⟩ := hr.get j _ ((linesOf_get src j _).2 ⟨hjlt, rfl⟩)
          rw [hj] at ho''
          injection ho'' with ho''
          subst ho''
          obtain ⟨u, hu, hul, -⟩ := hf'.diagPos d hmem
          have huj := (mem_lineTokens (src := src) (k := j) hu).2
          have : j = k := by omega
          subst this
          rw [hj] at ho
          injection ho with ho
          subst ho
          rcases pragma_line h2 hp hpl with ⟨m, hm, hdiag, -⟩ | ⟨hn', -⟩
          · rw [hdiag] at hmem; cases hmem
          · rw [hpv] at hn'; cases hn'
        · rw [lintDiags_eq _ _ _ hl] at hmem
          obtain ⟨e, -, rfl⟩ := List.mem_map.1 hmem; cases hkind
  · rw [carry_version env.addrOk src os hr _ (Nat.le_refl _), hv]
    cases hn : lineCount (tokens src) with
    | zero =>
      have : os = [] := by
        have := hr.length; rw [linesOf_length, hn] at this; exact List.length_eq_zero_iff.1 this
      subst this
      rfl
    | succ n =>
      have : os.length = n + 1 := by rw [hr.length, linesOf_length, hn]
      show _ = ((os[n]?.map LineOut.next).getD {}).version
      rw [List.getLast?_eq_getElem?, this]; rfl
  · intro hs k n hn
    have hone := noSurplus_ops hr (noSurplus_lines ha hs)
    have hn' := hn
    obtain ⟨s', rest', hws, -⟩ := hn'
    have hlt : k < lineCount (tokens src) := words_lt (fun h => by rw [h] at hws; cases hws)
    obtain ⟨o, ho, hpl, hf⟩ := hr.get k _ ((linesOf_get src k _).2 ⟨hlt, rfl⟩)
    cases hw : words (tokens src) k with
    | nil => rw [hw] at hws; cases hws
    | cons a rest =>
      obtain ⟨h1, h2, h3⟩ := lineTokens_words _ k a rest hw
      have hp : a.v = b!"#pragma" := by
        rw [hw] at hws; injection hws
      have hlv : lineVersion? (lineTokens (tokens src) k) = pragmaVersion? (a :: rest) := by
        rw [h1, lineVersion?, if_pos ⟨h2, hp⟩]
      have hpv : pragmaVersion? (a :: rest) = some n := hlv ▸ (lineVersion?_iff _ _ _).2 hn
      rw [h1] at hpl
      rcases pragma_line h2 hp hpl with ⟨m, hm, -, hops⟩ | ⟨hn', -⟩
      · rw [hpv] at hm
        injection hm with hm
        rw [hlist, one_op hone k o ho, hops, hm]; rfl
      · rw [hpv] at hn'; cases hn'

/-- **C24 is false of the code**: a hexadecimal version is accepted, surplus words are accepted,
and version 300 is recorded in the listing as 44. -/
theorem C24_false :
    (∃ r, process sampleEnv b!"#pragma version 0x8 z" = some r ∧ r.diagnostics = [] ∧ r.version = 8) ∧
    (∃ r, process sampleEnv b!"#pragma version 300" = some r ∧ r.diagnostics = [] ∧ r.version = 300 ∧
      r.listing = [.pragma 44]) :=
  ⟨⟨(process sampleEnv b!"#pragma version 0x8 z").get (by decide +kernel), by decide +kernel,
    by decide +kernel, by decide +kernel⟩,
   ⟨(process sampleEnv b!"#pragma version 300").get (by decide +kernel), by decide +kernel,
    by decide +kernel, by decide +kernel, by decide +kernel⟩⟩

/-! ## C25 -/

/-- **C25** Every diagnostic, symbol and reference is on a line of the text (there are
`breaks src + 1` of them) and its begin is not behind its end. -/
theorem C25_positions (env : Env) (src : Bytes) (r : ProcessResult) (h : process env src = some r) :
    (∀ d ∈ r.diagnostics, d.l < breaks src + 1 ∧ d.b ≤ d.e) ∧
    (∀ s ∈ r.symbols, s.l < breaks src + 1 ∧ s.b ≤ s.e) ∧
    (∀ t ∈ r.symbolRefs, t.l < breaks src + 1 ∧ t.b ≤ t.e) ∧
    (∀ t ∈ r.missRefs, t.l < breaks src + 1 ∧ t.b ≤ t.e) := by
  have htok := (readTokens_lines src).1
  have hrefs : ∀ t ∈ r.symbolRefs, t.l < breaks src + 1 ∧ t.b ≤ t.e := by
    intro t ht
    rw [C21_references env src r h, List.mem_flatMap] at ht
    obtain ⟨k, -, hk⟩ := ht
    have hsub : ∀ ws : List Token, ∀ x ∈ labelOperands ws, x ∈ ws := by
      intro ws x hx
      cases ws with
      | nil => cases hx
      | cons a rest =>
        rw [labelOperands] at hx
        split at hx
        · exact List.mem_cons_of_mem _ (List.mem_of_mem_take hx)
        · split at hx
          · exact List.mem_cons_of_mem _ hx
          · cases hx
    have := htok t (mem_words.1 (hsub _ _ hk)).1
    omega
  refine ⟨?_, ?_, hrefs, ?_⟩
  · intro d hd
    obtain ⟨os, hr, ha⟩ := process_run h
    obtain ⟨lds, hl, -, hdiag, -⟩ := assemble_eq ha
    have hlt := (lintDiags_some _ _).1 ⟨lds, hl⟩
    rw [hdiag] at hd
    simp only [List.mem_append] at hd
    rcases hd with (hd | hd) | hd
    · obtain ⟨e, he, rfl⟩ := List.mem_map.1 hd
      have := (readTokens_lines src).2.1 e he
      exact ⟨by show e.l < _; omega, Nat.le_refl _⟩
    · obtain ⟨o, ho, hmem⟩ := List.mem_flatMap.1 hd
      obtain ⟨s', line, hline, hf⟩ := hr.mem o ho
      obtain ⟨t, ht, h1, h2, h3⟩ := hf.diagPos d hmem
      obtain ⟨k, hk⟩ := List.mem_iff_getElem?.1 hline
      have := htok t (mem_lineTokens (((linesOf_get src k line).1 hk).2 ▸ ht)).1
      omega
    · rw [lintDiags_eq _ _ _ hl] at hd
      obtain ⟨e, he, rfl⟩ := List.mem_map.1 hd
      have h1 := hlt e he
      rw [linesOf_length] at h1
      have h2 := lineCount_le src
      refine ⟨by show e.l < _; omega, ?_⟩
      simp only [(linesOf_get src e.l _).2 ⟨h1, rfl⟩, Option.getD_some]
      exact lineBegin_le src e.l
  · intro s hs
    have : (s.name, s.l, s.b, s.e) ∈ r.symbols.map (fun s => (s.name, s.l, s.b, s.e)) :=
      List.mem_map.2 ⟨s, hs, rfl⟩
    rw [C20_symbols env src r h] at this
    obtain ⟨w, hw, he⟩ := List.mem_map.1 this
    obtain ⟨k, -, hk⟩ := List.mem_filterMap.1 hw
    have := htok w (mem_words.1 (labelWord_some hk).1).1
    simp only [Prod.mk.injEq] at he
    omega
  · intro t ht
    exact hrefs t ((C21_missing_refs env src r h t).1 ht).1

/-! ## C19 -/

/-- Two texts have the same words and comments on every line but line `k`. -/
def SameButLine (k : Nat) (src src' : Bytes) : Prop :=
  lineCount (tokens src) = lineCount (tokens src') ∧
  ∀ j, j ≠ k → words (tokens src) j = words (tokens src') j ∧
    comments (tokens src) j = comments (tokens src') j

theorem carry_congr {addrOk : Bytes → Bool} {src src' : Bytes} {os os' : List LineOut} {k : Nat}
    (hr : Run addrOk {} (linesOf src) os) (hr' : Run addrOk {} (linesOf src') os')
    (hsame : SameButLine k src src')
    (hver : ∀ n, SetsVersion ((words (tokens src) k).map Token.v) n ↔
      SetsVersion ((words (tokens src') k).map Token.v) n)
    (hmode : ModeLine (tokens src) k ↔ ModeLine (tokens src') k) (j : Nat)
    (hj : j ≤ lineCount (tokens src)) :
    (carryAt {} os j).version = (carryAt {} os' j).version ∧
    (carryAt {} os j).mode = (carryAt {} os' j).mode := by
  have hw : ∀ i n, SetsVersion ((words (tokens src) i).map Token.v) n ↔
      SetsVersion ((words (tokens src') i).map Token.v) n := by
    intro i n
    by_cases hi : i = k
    · subst hi; exact hver n
    · rw [(hsame.2 i hi).1]
  have hm : ∀ i, ModeLine (tokens src) i ↔ ModeLine (tokens src') i := by
    intro i
    by_cases hi : i = k
    · subst hi; exact hmode
    · unfold ModeLine; rw [(hsame.2 i hi).1, (hsame.2 i hi).2]
  constructor
  · have hv : ∀ i v, VersionAt (tokens src) i v → VersionAt (tokens src') i v := by
      intro i v h
      induction h with
      | first => exact .first
      | set i n h => exact .set i n ((hw i n).1 h)
      | keep i v h hn ih => exact .keep i v ih (fun n hn' => hn n ((hw i n).2 hn'))
    exact (carry_version addrOk src' os' hr' j (hsame.1 ▸ hj) _).1
      (hv j _ ((carry_version addrOk src os hr j hj _).2 rfl))
  · have h1 := carry_mode addrOk src os hr j hj
    have h2 := carry_mode addrOk src' os' hr' j (hsame.1 ▸ hj)
    have h3 : SigAt (tokens src) j ↔ SigAt (tokens src') j := by
      unfold SigAt
      simp only [hm]
    have : (carryAt {} os j).mode = .sig ↔ (carryAt {} os' j).mode = .sig := by rw [h1, h2, h3]
    cases ha : (carryAt {} os j).mode <;> cases hb : (carryAt {} os' j).mode <;> rw [ha, hb] at this <;>
      simp at this ⊢

theorem lineTokens_congr {src src' : Bytes} {k j : Nat} (h : SameButLine k src src') (hj : j ≠ k) :
    lineTokens (tokens src) j = lineTokens (tokens src') j := by
  unfold lineTokens; rw [(h.2 j hj).1, (h.2 j hj).2]

/-- **C19** Errors stay on their line: if two texts differ, token-wise, only in line `k`, and line `k` does
not set the version or the mode differently, then on every other line the parser reports exactly
the same diagnostics, and the listings are the same but for the entries of line `k`. -/
theorem C19_line_local (env : Env) (k : Nat) (src src' : Bytes) (r r' : ProcessResult)
    (h : process env src = some r) (h' : process env src' = some r')
    (hsame : SameButLine k src src') (hk : k < lineCount (tokens src))
    (hver : ∀ n, SetsVersion ((words (tokens src) k).map Token.v) n ↔
      SetsVersion ((words (tokens src') k).map Token.v) n)
    (hmode : ModeLine (tokens src) k ↔ ModeLine (tokens src') k) :
    (∃ before line line' after, r.listing = before ++ line ++ after ∧
      r'.listing = before ++ line' ++ after ∧ k ≤ before.length ∧ line ≠ [] ∧ line' ≠ [] ∧
      (NoSurplus r → before.length = k ∧ line.length = 1)) ∧
    (∀ d, d.l ≠ k → (∀ w, d.kind ≠ .lint w) → (∀ m, d.kind ≠ .lex m) →
      (d ∈ r.diagnostics ↔ d ∈ r'.diagnostics)) := by
  obtain ⟨os, hr, ha⟩ := process_run h
  obtain ⟨os', hr', ha'⟩ := process_run h'
  obtain ⟨lds, hl, hlist, hd, -⟩ := assemble_eq ha
  obtain ⟨lds', hl', hlist', hd', -⟩ := assemble_eq ha'
  have hlen : os.length = lineCount (tokens src) := by rw [hr.length, linesOf_length]
  have hlen' : os'.length = lineCount (tokens src) := by rw [hr'.length, linesOf_length, hsame.1]
  -- the rounds agree off line `k`
  have hctx : ∀ j, j ≠ k → os[j]?.map LineOut.ctx = os'[j]?.map LineOut.ctx := by
    intro j hj
    rcases Nat.lt_or_ge j (lineCount (tokens src)) with hlt | hge
    · obtain ⟨o, ho, hp, -⟩ := hr.get j _ ((linesOf_get src j _).2 ⟨hlt, rfl⟩)
      obtain ⟨o', ho', hp', -⟩ := hr'.get j _ ((linesOf_get src' j _).2 ⟨hsame.1 ▸ hlt, rfl⟩)
      have hc := carry_congr hr hr' hsame hver hmode j (by omega)
      rw [← lineTokens_congr hsame hj] at hp'
      have := (processLine_congr env.addrOk _ _ _ o o' hc.1 hc.2 hp hp').1
      rw [ho, ho']; simp [this]
    · rw [List.getElem?_eq_none (by omega), List.getElem?_eq_none (by omega)]
  constructor
  · obtain ⟨o, ho, -, hf⟩ := hr.get k _ ((linesOf_get src k _).2 ⟨hk, rfl⟩)
    obtain ⟨o', ho', -, hf'⟩ := hr'.get k _ ((linesOf_get src' k _).2 ⟨hsame.1 ▸ hk, rfl⟩)
    have hsplit : ∀ (l : List LineOut) (x : LineOut), l[k]? = some x →
        l.flatMap (·.ctx.ops) = (l.take k).flatMap (·.ctx.ops) ++ x.ctx.ops ++
          (l.drop (k + 1)).flatMap (·.ctx.ops) := by
      intro l x hx
      obtain ⟨hlt, hx⟩ := List.getElem?_eq_some_iff.1 hx
      conv => lhs; rw [← List.take_append_drop k l, List.drop_eq_getElem_cons hlt, hx]
      rw [List.flatMap_append, List.flatMap_cons, List.append_assoc]
    have hmap : ∀ l : List LineOut, l.flatMap (·.ctx.ops) = (l.map (·.ctx)).flatMap (·.ops) := by
      intro l; rw [List.flatMap_map]
    have htake : (os.take k).map (·.ctx) = (os'.take k).map (·.ctx) := by
      apply List.ext_getElem?
      intro j
      rw [List.getElem?_map, List.getElem?_map, List.getElem?_take, List.getElem?_take]
      split
      · exact hctx j (by omega)
      · rfl
    have hdrop : (os.drop (k + 1)).map (·.ctx) = (os'.drop (k + 1)).map (·.ctx) := by
      apply List.ext_getElem?
      intro j
      rw [List.getElem?_map, List.getElem?_map, List.getElem?_drop, List.getElem?_drop]
      exact hctx _ (by omega)
    refine ⟨(os.take k).flatMap (·.ctx.ops), o.ctx.ops, o'.ctx.ops,
      (os.drop (k + 1)).flatMap (·.ctx.ops), by rw [hlist]; exact hsplit os o ho, ?_, ?_, ?_, ?_, ?_⟩
    · rw [hlist', hsplit os' o' ho', hmap (os.take k), htake, hmap (os.drop (k + 1)), hdrop, ← hmap, ← hmap]
    · have : ∀ l : List LineOut, (∀ x ∈ l, x ∈ os) → l.length ≤ (l.flatMap (·.ctx.ops)).length := by
        intro l
        induction l with
        | nil => simp
        | cons a l ih =>
          intro hm
          obtain ⟨s', line, -, hfa⟩ := hr.mem a (hm a (by simp))
          have := ih (fun x hx => hm x (by simp [hx]))
          rw [List.flatMap_cons, List.length_append, List.length_cons]
          rcases hfa.ops with ⟨op, h1, _⟩ | ⟨op, t, h1, _⟩ <;> rw [h1] <;> simp only [List.length_cons, List.length_nil] <;> omega
      have := this (os.take k) (fun x hx => List.mem_of_mem_take hx)
      rw [List.length_take, hlen] at this
      omega
    · rcases hf.ops with ⟨op, h1, _⟩ | ⟨op, t, h1, _⟩ <;> rw [h1] <;> simp
    · rcases hf'.ops with ⟨op, h1, _⟩ | ⟨op, t, h1, _⟩ <;> rw [h1] <;> simp
    · intro hs
      have hone := noSurplus_ops hr (noSurplus_lines ha hs)
      constructor
      · rw [one_op_length (fun x hx => hone x (List.mem_of_mem_take hx)), List.length_take, hlen]
        omega
      · obtain ⟨op, hop⟩ := hone o (List.mem_of_getElem? ho)
        rw [hop]; rfl
  · have key : ∀ (src : Bytes) (os : List LineOut) (r : ProcessResult) (lds : List Diag)
        (lts : List (List Token)) (es : List LintErr),
        r.diagnostics = (readTokens src).2.map lexDiag ++ os.flatMap (·.ctx.diag) ++ lds →
        lintDiags lts es = some lds →
        ∀ d, (∀ w, d.kind ≠ .lint w) → (∀ m, d.kind ≠ .lex m) →
        (d ∈ r.diagnostics ↔ ∃ (j : Nat) (c : LineCtx), os[j]?.map LineOut.ctx = some c ∧ d ∈ c.diag) := by
      intro src os r lds lts es hd hl d h1 h2
      rw [hd]
      simp only [List.mem_append, List.mem_flatMap]
      constructor
      · rintro ((h | ⟨o, ho, h⟩) | h)
        · obtain ⟨e, -, rfl⟩ := List.mem_map.1 h; exact absurd rfl (h2 _)
        · obtain ⟨j, hj⟩ := List.mem_iff_getElem?.1 ho
          exact ⟨j, o.ctx, by rw [hj]; rfl, h⟩
        · rw [lintDiags_eq _ _ _ hl] at h
          obtain ⟨e, -, rfl⟩ := List.mem_map.1 h; exact absurd rfl (h1 _)
      · rintro ⟨j, c, hj, h⟩
        obtain ⟨o, ho, rfl⟩ := Option.map_eq_some_iff.1 hj
        exact Or.inl (Or.inr ⟨o, List.mem_of_getElem? ho, h⟩)
    have hline : ∀ (src : Bytes) (os : List LineOut), Run env.addrOk {} (linesOf src) os →
        ∀ (j : Nat) (c : LineCtx) (d : Diag), os[j]?.map LineOut.ctx = some c → d ∈ c.diag → d.l = j := by
      intro src os hr j c d hj hmem
      obtain ⟨o, ho, rfl⟩ := Option.map_eq_some_iff.1 hj
      have hlt : j < lineCount (tokens src) := by
        have := (List.getElem?_eq_some_iff.1 ho).1
        rw [hr.length, linesOf_length] at this
        exact this
      obtain ⟨o', ho', -, hf⟩ := hr.get j _ ((linesOf_get src j _).2 ⟨hlt, rfl⟩)
      rw [ho] at ho'
      injection ho' with ho'
      subst ho'
      obtain ⟨t, ht, h1, -⟩ := hf.diagPos d hmem
      rw [h1]
      exact (mem_lineTokens ht).2
    intro d hdl h1 h2
    rw [key src os r lds _ _ hd hl d h1 h2, key src' os' r' lds' _ _ hd' hl' d h1 h2]
    constructor
    · rintro ⟨j, c, hj, hm⟩
      have := hline src os hr j c d hj hm
      exact ⟨j, c, by rw [← hctx j (by omega)]; exact hj, hm⟩
    · rintro ⟨j, c, hj, hm⟩
      have := hline src' os' hr' j c d hj hm
      exact ⟨j, c, by rw [hctx j (by omega)]; exact hj, hm⟩


theorem lexes_no_eol {l c : Nat} {src : Bytes} {ts : List Token} {err : Option (Nat × Nat)}
    (h : Lexes l c src ts err) (hs : ∀ x ∈ src, ¬ Break x) : ∀ t ∈ ts, t.t ≠ .eol ∧ t.l = l := by
  induction h with
  | done => simp
  | blank l c x rest ts err hx h ih => exact ih (fun y hy => hs y (by simp [hy]))
  | eol l c raw rest ts err hraw h ih =>
    rcases hraw with rfl | rfl | ⟨rfl, -⟩
    · exact absurd (Or.inr rfl) (hs chLF (by simp))
    · exact absurd (Or.inl rfl) (hs chCR (by simp))
    · exact absurd (Or.inl rfl) (hs chCR (by simp))
  | comment l c v rest ts err hv hrest h ih =>
    intro t ht
    rcases List.mem_cons.1 ht with rfl | ht
    · exact ⟨by simp, rfl⟩
    · exact ih (fun y hy => hs y (by simp [hy])) t ht
  | bare l c v rest ts err hne hq hsl hv hrest h ih =>
    intro t ht
    rcases List.mem_cons.1 ht with rfl | ht
    · exact ⟨by simp, rfl⟩
    · exact ih (fun y hy => hs y (by simp [hy])) t ht
  | quoted l c body rest ts err hbody hlast h ih =>
    intro t ht
    rcases List.mem_cons.1 ht with rfl | ht
    · exact ⟨by simp, rfl⟩
    · exact ih (fun y hy => hs y (by simp [hy])) t ht
  | unterminated l c rest h => simp

/-- The tokens of three parts of a text, the middle part being one line. -/
theorem tokens_line (a x b : Bytes) (ha : (readTokens a).2 = []) (hacr : a.getLast? ≠ some chCR)
    (hx : (readTokens x).2 = []) (hxb : ∀ c ∈ x, ¬ Break c) :
    ∃ e1 e2 : Token, e1.t = .eol ∧ e2.t = .eol ∧
      e1.l = ((readTokens a).1.filter (fun t => decide (t.t = .eol))).length ∧ e2.l = e1.l + 1 ∧
      tokens (a ++ [chLF] ++ (x ++ [chLF] ++ b)) =
        tokens a ++ [e1] ++ ((tokens x).map (moveDown (e1.l + 1)) ++ [e2] ++
          (tokens b).map (moveDown (e1.l + 2))) := by
  obtain ⟨n, col, hn, h1, -⟩ := C04_compositional a [chLF] (x ++ [chLF] ++ b) ha (Or.inl ⟨rfl, hacr⟩)
  have hxcr : x.getLast? ≠ some chCR := fun h => hxb chCR (List.mem_of_getLast? h) (Or.inl rfl)
  obtain ⟨m, col', hm, h2, -⟩ := C04_compositional x [chLF] b hx (Or.inl ⟨rfl, hxcr⟩)
  have hm0 : m = 0 := by
    rw [hm, List.length_eq_zero_iff, List.filter_eq_nil_iff]
    intro t ht
    obtain ⟨err, hl, -⟩ := readTokens_lexes x
    simpa using (lexes_no_eol hl hxb t ht).1
  subst hm0
  refine ⟨{ v := [chLF], l := n, b := col, e := col + 1, t := .eol },
    moveDown (n + 1) { v := [chLF], l := 0, b := col', e := col' + 1, t := .eol }, rfl, rfl, hn, ?_,
    h1.trans ?_⟩
  · show 0 + (n + 1) = n + 1; omega
  · rw [h2]
    simp only [List.map_append, List.map_map, List.map_cons, List.map_nil]
    congr 2
    apply List.map_congr_left
    intro t _
    simp only [Function.comp, moveDown, Token.mk.injEq, and_true, true_and]
    omega

/-- **C19** Replacing one line of a text: if the text before it lexes without error, and neither
the old nor the new line contains a line break or a string that is never closed, then the two texts
have the same words and comments on all other lines, so that `C19_line_local` applies. -/
theorem C19_replace_line (a x y b : Bytes) (ha : (readTokens a).2 = []) (hacr : a.getLast? ≠ some chCR)
    (hx : (readTokens x).2 = []) (hxb : ∀ c ∈ x, ¬ Break c)
    (hy : (readTokens y).2 = []) (hyb : ∀ c ∈ y, ¬ Break c) :
    ∃ k, SameButLine k (a ++ [chLF] ++ (x ++ [chLF] ++ b)) (a ++ [chLF] ++ (y ++ [chLF] ++ b)) ∧
      k < lineCount (tokens (a ++ [chLF] ++ (x ++ [chLF] ++ b))) ∧
      words (tokens (a ++ [chLF] ++ (x ++ [chLF] ++ b))) k = (words (tokens x) 0).map (moveDown k) ∧
      words (tokens (a ++ [chLF] ++ (y ++ [chLF] ++ b))) k = (words (tokens y) 0).map (moveDown k) := by
  obtain ⟨e1, e2, h1, h2, h3, h4, h5⟩ := tokens_line a x b ha hacr hx hxb
  obtain ⟨f1, f2, g1, g2, g3, g4, g5⟩ := tokens_line a y b ha hacr hy hyb
  have hef : f1.l = e1.l := g3.trans h3.symm
  rw [hef] at g4 g5
  have htok : ∀ z : Bytes, (∀ c ∈ z, ¬ Break c) → ∀ t ∈ tokens z, t.l = 0 := by
    intro z hz t ht
    obtain ⟨err, hl, -⟩ := readTokens_lexes z
    exact (lexes_no_eol hl hz t ht).2
  have hseqa : ∀ t ∈ tokens a, t.l ≤ e1.l := by
    intro t ht
    rw [h3]
    simpa using seq_line_le (readTokens_seq a) t ht
  -- the middle part only contributes to line `e1.l + 1`
  have hmid : ∀ z : Bytes, (∀ c ∈ z, ¬ Break c) → ∀ (p : Token → Bool) (j : Nat), j ≠ e1.l + 1 →
      ((tokens z).map (moveDown (e1.l + 1))).filter (fun t => decide (t.l = j) && p t) = [] := by
    intro z hz p j hj
    rw [List.filter_eq_nil_iff]
    intro t ht
    obtain ⟨u, hu, rfl⟩ := List.mem_map.1 ht
    have := htok z hz u hu
    have hne : ¬ (moveDown (e1.l + 1) u).l = j := by
      show ¬ u.l + (e1.l + 1) = j
      omega
    simp [hne]
  have hwords : ∀ (z : Bytes) (m1 m2 : Token), (∀ c ∈ z, ¬ Break c) → m1.t = .eol → m2.t = .eol →
      words (tokens a ++ [m1] ++ ((tokens z).map (moveDown (e1.l + 1)) ++ [m2] ++
          (tokens b).map (moveDown (e1.l + 2)))) (e1.l + 1) =
        (words (tokens z) 0).map (moveDown (e1.l + 1)) := by
    intro z m1 m2 hz hm1 hm2
    unfold words
    simp only [List.filter_append]
    have e1' : (tokens a).filter (fun t => decide (t.l = e1.l + 1) && decide (t.t = .value)) = [] := by
      rw [List.filter_eq_nil_iff]
      intro t ht
      have := hseqa t ht
      have hne : ¬ t.l = e1.l + 1 := by omega
      simp [hne]
    have e2' : ((tokens b).map (moveDown (e1.l + 2))).filter
        (fun t => decide (t.l = e1.l + 1) && decide (t.t = .value)) = [] := by
      rw [List.filter_eq_nil_iff]
      intro t ht
      obtain ⟨u, hu, rfl⟩ := List.mem_map.1 ht
      have hne : ¬ (moveDown (e1.l + 2) u).l = e1.l + 1 := by
        show ¬ u.l + (e1.l + 2) = e1.l + 1
        omega
      simp [hne]
    rw [e1', e2']
    simp only [List.filter_cons, hm1, hm2, List.filter_nil, List.nil_append, List.append_nil,
      reduceCtorEq, decide_false, Bool.and_false, Bool.false_eq_true, if_false]
    rw [List.filter_map]
    congr 1
    apply List.filter_congr
    intro t ht
    have := htok z hz t ht
    simp [moveDown, this]
  refine ⟨e1.l + 1, ⟨?_, ?_⟩, ?_, ?_, ?_⟩
  · rw [h5, g5]
    unfold lineCount
    rw [List.getLast?_append, List.getLast?_append, List.getLast?_append, List.getLast?_append,
      List.getLast?_append, List.getLast?_append]
    cases ((tokens b).map (moveDown (e1.l + 2))).getLast? with
    | none => simp [h4, g4]
    | some t => simp
  · intro j hj
    unfold words comments
    rw [h5, g5]
    simp only [List.filter_append, hmid x hxb _ j hj, hmid y hyb _ j hj]
    simp only [List.filter_cons, h1, h2, g1, g2, reduceCtorEq, decide_false, Bool.and_false,
      Bool.false_eq_true, if_false, List.filter_nil]
    exact ⟨trivial, trivial⟩
  · rw [h5]
    unfold lineCount
    rw [List.getLast?_append, List.getLast?_append]
    cases hb : ((tokens b).map (moveDown (e1.l + 2))).getLast? with
    | none => simp [h4]
    | some t =>
      obtain ⟨u, -, rfl⟩ := List.mem_map.1 (List.mem_of_getLast? hb)
      simp only [List.getLast?_singleton, Option.some_or, Option.map_some, Option.getD_some]
      show e1.l + 1 < u.l + (e1.l + 2) + 1
      omega
  · rw [h5]; exact hwords x e1 e2 hxb h1 h2
  · rw [g5]; exact hwords y f1 f2 hyb g1 g2

/-- The hypotheses of `C19_replace_line` and `C19_line_local` are met: an erroneous line in place of a correct
one. -/
example : (readTokens b!"#pragma version 8").2 = [] ∧ (readTokens b!"int 1").2 = [] ∧
    (readTokens b!"txn Nope").2 = [] ∧ (∀ c ∈ b!"txn Nope", ¬ (c = chCR ∨ c = chLF)) ∧
    (process sampleEnv b!"#pragma version 8\nint 1\nreturn").isSome = true ∧
    (process sampleEnv b!"#pragma version 8\ntxn Nope\nreturn").isSome = true := by
  decide +kernel

/-- **C19 is false of the code** when the erroneous line opens a string it does not close: the
lines behind it disappear from the listing. -/
theorem C19_false :
    (∃ r, process sampleEnv b!"byte \"abc\"\nint 1" = some r ∧ r.listing.length = 2) ∧
    (∃ r, process sampleEnv b!"byte \"abc\nint 1" = some r ∧ r.listing = [.empty]) :=
  ⟨⟨(process sampleEnv b!"byte \"abc\"\nint 1").get (by decide +kernel), by decide +kernel,
    by decide +kernel⟩,
   ⟨(process sampleEnv b!"byte \"abc\nint 1").get (by decide +kernel), by decide +kernel,
    by decide +kernel⟩⟩

end Teal.Props
