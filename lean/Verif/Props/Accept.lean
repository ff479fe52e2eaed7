import Verif.Props.LintText
import Verif.Model.Diag
import Verif.Spec.Accept

/-!
# Which texts are accepted
-/

namespace Teal.Props

open Teal Spec P

/-- `:` alone is not accepted. -/
theorem colon_line {addrOk : Bytes → Bool} {s : Carry} {t : Token} {rest : List Token} {o : LineOut} (ht : t.t = .value)
    (hv : t.v = [chColon]) (h : processLine addrOk s (t :: rest) = some o) : ∃ d ∈ o.ctx.diag, d.kind = .parse .missingLabelName := by
  rw [processLine] at h
  dsimp only at h
  rw [if_neg (by rw [ht]; simp), if_pos (by rw [hv]; rfl), if_pos (by rw [hv]; rfl)] at h
  obtain ⟨c, hc, rfl⟩ := Option.map_eq_some_iff.1 h
  simp only [P.failCurr, P.failToken, LineCtx.curr, recovered] at hc
  simp at hc
  subst hc
  simp

/-- The lines from `k` on are a program if nothing is reported on them. -/
theorem lines_program {env : Env} {src : Bytes} {r : ProcessResult} (hr : process env src = some r) (ht : Tidy (tokens src))
    (hno : ∀ d ∈ r.diagnostics, ∀ why, d.kind ≠ .parse why) :
    ∀ (m k ver : Nat), k + m = lineCount (tokens src) → VersionAt (tokens src) k ver →
      ∃ os, Program env.addrOk ver ((wordLines (tokens src)).drop k) os := by
  intro m
  induction m with
  | zero =>
    intro k ver hk hv
    refine ⟨[], ?_⟩
    rw [List.drop_eq_nil_of_le (by simp [wordLines]; omega)]
    exact .nil _
  | succ m ih =>
    intro k ver hk hv
    have hlt : k < lineCount (tokens src) := by omega
    have hd : (wordLines (tokens src)).drop k = (words (tokens src) k).map Token.v :: (wordLines (tokens src)).drop (k + 1) := by
      rw [List.drop_eq_getElem_cons (by simp [wordLines]; exact hlt)]
      simp [wordLines]
    rw [hd]
    have htidy := ht k ver hv
    have hkeep : (∀ n, ¬ SetsVersion ((words (tokens src) k).map Token.v) n) →
        ∃ os, Program env.addrOk ver ((wordLines (tokens src)).drop (k + 1)) os := fun h => ih (k + 1) ver (by omega) (.keep k ver hv h)
    cases hw : words (tokens src) k with
    | nil =>
      rw [hw] at hkeep
      obtain ⟨os, hos⟩ := hkeep (by rintro n ⟨s, rest, h, -⟩; cases h)
      exact ⟨_, .blank _ _ _ hos⟩
    | cons t rest =>
      rw [hw] at htidy hkeep
      simp only [List.map_cons, TidyLine] at htidy hkeep ⊢
      by_cases hc : t.v.getLast? = some chColon
      · rw [if_pos hc] at htidy
        rw [htidy] at hkeep ⊢
        have hne : t.v.dropLast ≠ [] := by
          intro h0
          have hv58 : t.v = [chColon] := by
            have hnil : t.v ≠ [] := by intro h; rw [h] at hc; cases hc
            rw [← List.dropLast_append_getLast hnil, h0]
            rw [List.getLast?_eq_some_getLast hnil] at hc
            injection hc with hc
            rw [hc]; rfl
          obtain ⟨os, hr', ha⟩ := process_run hr
          obtain ⟨o, ho, hpl, -⟩ := hr'.get k _ ((linesOf_get src k _).2 ⟨hlt, rfl⟩)
          obtain ⟨h1, h2, -⟩ := lineTokens_words _ k t rest hw
          rw [show lineTokens (readTokens src).1 k = t :: rest from h1] at hpl
          obtain ⟨d, hd, hdk⟩ := colon_line h2 hv58 hpl
          exact hno d ((parse_diags hr' ha k o ho d ⟨_, hdk⟩).2 hd).1 _ hdk
        obtain ⟨os, hos⟩ := hkeep (by rintro n ⟨s, rest, h, -⟩; simp at h)
        have hn : t.v = t.v.dropLast ++ [58] := by
          have hnil : t.v ≠ [] := by intro h; rw [h] at hc; cases hc
          rw [List.getLast?_eq_some_getLast hnil] at hc
          injection hc with hc
          conv => lhs; rw [← List.dropLast_append_getLast hnil, hc]
        rw [hn]
        exact ⟨_, .label _ _ hne _ _ hos⟩
      · rw [if_neg hc] at htidy
        by_cases hp : t.v = b!"#pragma"
        · rw [if_pos hp] at htidy
          obtain ⟨n, hn⟩ := ((C24_pragma_partial env src r hr).1 k t (by rw [hw]; rfl) hp).1 (fun d hd _ => hno d hd)
          rw [hw] at hn
          have h2 := htidy n hn
          obtain ⟨os, hos⟩ := ih (k + 1) n (by omega) (.set k n (by rw [hw]; exact hn))
          obtain ⟨s, more, he, hs, h1, -⟩ := hn
          rw [List.map_cons] at he
          rw [he]
          injection he with he1 he2
          have : more = [] := by
            have := h2.1
            rw [he2] at this
            simp at this
            exact this
          rw [this]
          exact ⟨_, .version _ s n hs h1 h2.2 _ _ hos⟩
        · rw [if_neg hp] at htidy
          obtain ⟨os, hos⟩ := hkeep (by rintro n ⟨s, rest, h, -⟩; injection h with h; exact hp h)
          obtain ⟨o, ho⟩ := (C55_operands_partial env src r hr k t rest ver hw hv hc hp htidy.2).1.1 (fun d hd _ => hno d hd)
          exact ⟨_, .instr _ _ _ _ htidy.2.group ho _ _ hos⟩

/-- No diagnostic is an error. -/
def NoErrors (r : ProcessResult) : Prop := ∀ d ∈ r.diagnostics, severity d.kind ≠ .err

theorem tidy_args {ts : List Token} (ht : Tidy ts) {k V : Nat} (hV : VersionAt ts k V) {t : Token} (hw : (words ts k).head? = some t) :
    t.v ≠ b!"args" := by
  intro h
  cases hl : words ts k with
  | nil => rw [hl] at hw; cases hw
  | cons a rest =>
    rw [hl] at hw
    injection hw with hw
    subst hw
    have := ht k V hV
    rw [hl, List.map_cons, TidyLine, if_neg (by rw [h]; decide), if_neg (by rw [h]; decide)] at this
    exact this.1 h

theorem noErrors_iff (env : Env) (src : Bytes) (r : ProcessResult) (hr : process env src = some r) (ht : Tidy (tokens src)) :
    NoErrors r ↔ ∃ os, ValidProgram env.addrOk src (tokens src) os := by
  have hlex : (∃ d ∈ r.diagnostics, ∃ m, d.kind = .lex m) ↔ (readTokens src).2 ≠ [] := by
    obtain ⟨os, hr', ha⟩ := process_run hr
    obtain ⟨lds, hl, hlist, hdg, -⟩ := assemble_eq ha
    constructor
    · rintro ⟨d, hd, m, hm⟩ h0
      rw [hdg, h0] at hd
      simp only [List.map_nil, List.nil_append, List.mem_append] at hd
      rcases hd with hd | hd
      · obtain ⟨o, ho, hd⟩ := List.mem_flatMap.1 hd
        obtain ⟨s', line, -, hf⟩ := hr'.mem o ho
        rcases hf.diagKind d hd with h1 | ⟨w, h1⟩
        · rw [hm] at h1; cases h1
        · rw [hm] at h1; cases h1
      · rw [lintDiags_eq _ _ _ hl] at hd
        obtain ⟨e, -, rfl⟩ := List.mem_map.1 hd
        cases hm
    · intro h
      cases he : (readTokens src).2 with
      | nil => exact absurd he h
      | cons e es =>
        refine ⟨lexDiag e, ?_, _, rfl⟩
        rw [hdg, he]
        simp
  have hsigs : ∀ k, ∃ sig : Bool, sig = true ↔ SigAt (tokens src) k := fun k => by
    rcases Classical.em (SigAt (tokens src) k) with h | h
    · exact ⟨true, by simp [h]⟩
    · exact ⟨false, by simp [h]⟩
  have hver : ∀ k t, (words (tokens src) k).head? = some t → ∃ V, VersionAt (tokens src) k V := fun k t hw => by
    obtain ⟨os, hr', -⟩ := process_run hr
    exact ⟨_, (carry_version env.addrOk src os hr' k
      (Nat.le_of_lt (words_lt (fun h => by rw [h] at hw; cases hw))) _).2 rfl⟩
  constructor
  · intro h
    have hno : ∀ d ∈ r.diagnostics, ∀ why, d.kind ≠ .parse why := fun d hd why hk => h d hd (by rw [hk]; rfl)
    obtain ⟨os, hp⟩ := lines_program hr ht hno (lineCount (tokens src)) 0 1 (by omega) .first
    rw [List.drop_zero] at hp
    have hrep : ∀ rule k, severity (.lint rule) = .err → ¬ Reported r rule k := by
      rintro rule k hs ⟨d, hd, hk, -⟩
      exact h d hd (by rw [hk]; exact hs)
    refine ⟨os, ?_, hp, ?_, ?_, ?_, ?_, ?_⟩
    · intro hx
      obtain ⟨d, hd, m, hm⟩ := hlex.2 ((C05_error_iff src).2 hx)
      exact h d hd (by rw [hm]; rfl)
    · intro k V sig t d hw hd hn hV hs
      have hargs : d.name ≠ b!"args" := by rw [hn]; exact tidy_args ht hV hw
      cases hm : d.since sig with
      | none =>
        exact absurd rfl (h _ ((C23_mode_partial env src r hr k sig hs t hw d hd hn hargs _).2 ⟨hm, rfl⟩))
      | some m =>
        refine ⟨m, rfl, Nat.le_of_not_lt fun hlt => ?_⟩
        exact absurd rfl (h _ ((C22_version_partial env src r hr k V hV sig hs t hw d hd hn hargs m V).2 ⟨hm, hlt, rfl⟩))
    · intro i o n hi ho
      exact Classical.byContradiction fun hn => hrep (.missingLabel n) i rfl ((C89_lines env src os r hp hr i n).2.2.1.2 ⟨o, hi, ho, hn⟩)
    · intro n i j hi hj
      exact Classical.byContradiction fun hn => hrep (.duplicateLabel n) i rfl ((C89_lines env src os r hp hr i n).1.2 ⟨j, hi, Ne.symm hn, hj⟩)
    · intro k v hk i o hi ho
      have := fun hx => hrep .pragmaAfterInstr k rfl ((C89_lines env src os r hp hr k []).2.2.2.2.2 ⟨⟨v, hk⟩, i, o, hi, ho, hx⟩)
      exact ⟨Classical.byContradiction fun hx => this (.inl hx), fun v' hx => this (.inr ⟨v', hx⟩)⟩
    · intro k j n hk hj hlt
      refine Classical.byContradiction fun hx => hrep .infiniteLoop k rfl ((C89_loops env src os r hp hr k).2 n j hk hlt hj ?_ ?_)
      · intro i h1 h2 h3
        refine absurd (Classical.byContradiction fun hn => hrep (.duplicateLabel n) i rfl
          ((C89_lines env src os r hp hr i n).1.2 ⟨j, h3, Ne.symm hn, hj⟩)) (by omega : ¬ i = j)
      · exact fun i h1 h2 h3 => hx ⟨i, h1, h2, h3⟩
  · rintro ⟨os, hc, hp, hav, hdef, huniq, hfirst, hloop⟩ d hd hs
    cases hk : d.kind with
    | lex m => exact hc ((C05_error_iff src).1 (hlex.1 ⟨d, hd, m, hk⟩))
    | parse why =>
      obtain ⟨r', h1, -, h2⟩ := C72_program env src os hp
      rw [hr] at h1
      injection h1 with h1
      exact h2 d (h1 ▸ hd) why hk
    | mode md =>
      obtain ⟨k, t, hw, hl, hb, he, e, he1, he2⟩ := C22_only env src r hr d hd (.inl ⟨md, hk⟩)
      have htl := (mem_words.1 (List.mem_of_mem_head? hw)).2.1
      obtain ⟨V, hV⟩ := hver k t hw
      have hde : d = ⟨.mode md, t.l, t.b, t.e⟩ := by
        cases d; simp only at hk hl hb he; rw [hk, hl, hb, he, htl]
      have hargs : e.name ≠ b!"args" := by rw [he2]; exact tidy_args ht hV hw
      obtain ⟨sig, hsig⟩ := hsigs k
      have hs := (C23_mode_partial env src r hr k sig hsig t hw e he1 he2 hargs md).1 (hde ▸ hd)
      obtain ⟨m, hm, -⟩ := hav k V sig t e hw he1 he2 hV hsig
      rw [hs.1] at hm; cases hm
    | version min cur =>
      obtain ⟨k, t, hw, hl, hb, he, e, he1, he2⟩ := C22_only env src r hr d hd (.inr ⟨min, cur, hk⟩)
      have htl := (mem_words.1 (List.mem_of_mem_head? hw)).2.1
      obtain ⟨V, hV⟩ := hver k t hw
      have hde : d = ⟨.version min cur, t.l, t.b, t.e⟩ := by
        cases d; simp only at hk hl hb he; rw [hk, hl, hb, he, htl]
      have hargs : e.name ≠ b!"args" := by rw [he2]; exact tidy_args ht hV hw
      obtain ⟨sig, hsig⟩ := hsigs k
      have hs := (C22_version_partial env src r hr k V hV sig hsig t hw e he1 he2 hargs min cur).1 (hde ▸ hd)
      obtain ⟨m, hm, hle⟩ := hav k V sig t e hw he1 he2 hV hsig
      rw [hs.1] at hm
      injection hm with hm
      omega
    | lint rule =>
      have hrep : Reported r rule d.l := ⟨d, hd, hk, rfl⟩
      cases rule with
      | duplicateLabel n =>
        obtain ⟨j, h1, h2, h3⟩ := (C89_lines env src os r hp hr _ n).1.1 hrep
        exact h2 (huniq n j _ h3 h1)
      | unusedLabel => rw [hk] at hs; cases hs
      | unreachable => rw [hk] at hs; cases hs
      | bJustBefore => rw [hk] at hs; cases hs
      | missingLabel n =>
        obtain ⟨o, h1, h2, h3⟩ := (C89_lines env src os r hp hr _ n).2.2.1.1 hrep
        exact h3 (hdef _ o n h1 h2)
      | infiniteLoop =>
        rw [reported_iff hp hr] at hrep
        obtain ⟨n, j, h1, h2, h3, -, h4⟩ := (C31_rule env.maps os d.l).1 hrep
        obtain ⟨i, h5, h6, h7⟩ := hloop _ j n h1 h3 h2
        exact h4 i h5 h6 h7
      | pragmaAfterInstr =>
        obtain ⟨⟨v, h1⟩, i, o, h2, h3, h4⟩ := (C89_lines env src os r hp hr _ []).2.2.2.2.1 hrep
        have := hfirst _ v h1 i o h2 h3
        rcases h4 with h4 | ⟨v', h4⟩
        · exact h4 this.1
        · exact this.2 v' h4

/-- **C91** (partial: for tidy texts, see `C91_false`.)  A text is processed without an error exactly if it is a
valid program. -/
theorem C91_partial (env : Env) (src : Bytes) (ht : Tidy (tokens src)) :
    (∃ r, process env src = some r ∧ NoErrors r) ↔ ∃ os, ValidProgram env.addrOk src (tokens src) os := by
  constructor
  · rintro ⟨r, hr, h⟩
    exact (noErrors_iff env src r hr ht).1 h
  · rintro ⟨os, h⟩
    obtain ⟨r, hr, -⟩ := C72_program env src os h.program
    exact ⟨r, hr, (noErrors_iff env src r hr ht).2 ⟨os, h⟩⟩

/-- Only the instructions of lines that are no labels are left. -/
theorem label_program {addrOk : Bytes → Bool} {ver : Nat} {ws : List Bytes} {n : Bytes} (h : Program addrOk ver [ws] [.label n]) :
    ws = [n ++ [58]] := by
  cases h with
  | label => rfl
  | instr _ _ _ _ _ ho => cases ho

/-- **C91** is false of the code: what follows a label on its line is dropped, and `args` is accepted where it is
not there, with no error reported. -/
theorem C91_false :
    (∃ r, process sampleEnv b!"x: int 1" = some r ∧ NoErrors r ∧ r.listing = [.label b!"x"] ∧
      ¬ ∃ os, ValidProgram sampleEnv.addrOk b!"x: int 1" (tokens b!"x: int 1") os) ∧
    (∃ r, process sampleEnv b!"#pragma version 5\nargs" = some r ∧ NoErrors r ∧
      ¬ ∃ os, ValidProgram sampleEnv.addrOk b!"#pragma version 5\nargs" (tokens b!"#pragma version 5\nargs") os) := by
  constructor
  · have h : (process sampleEnv b!"x: int 1").map (fun r => (r.listing, r.diagnostics.map (·.kind))) =
        some ([.label b!"x"], [.lint (.unusedLabel b!"x")]) := by decide +kernel
    obtain ⟨r, hr, h⟩ := Option.map_eq_some_iff.1 h
    injection h with h1 h2
    refine ⟨r, hr, ?_, h1, ?_⟩
    · intro d hd hs
      have := List.mem_map_of_mem (f := fun d : Diag => d.kind) hd
      rw [h2] at this
      simp only [List.mem_singleton] at this
      rw [this] at hs; cases hs
    · rintro ⟨os, hv⟩
      have hp := hv.program
      have := program_listing hp hr
      rw [h1] at this
      subst this
      rw [show wordLines (tokens b!"x: int 1") = [[b!"x:", b!"int", b!"1"]] by decide +kernel] at hp
      have := label_program hp
      simp at this
  · obtain ⟨hd, ⟨r, hr, h1⟩, -⟩ := C22_false
    refine ⟨r, hr, ?_, ?_⟩
    · intro d hd; rw [h1] at hd; cases hd
    · rintro ⟨os, hv⟩
      obtain ⟨d, hd, hn, happ, -⟩ := hd
      have hw : (words (tokens b!"#pragma version 5\nargs") 1).map (fun t : Token => t.v) = [b!"args"] := by decide +kernel
      cases hl : words (tokens b!"#pragma version 5\nargs") 1 with
      | nil => rw [hl] at hw; cases hw
      | cons t rest =>
        rw [hl] at hw
        injection hw with hw1 hw2
        have hV : VersionAt (tokens b!"#pragma version 5\nargs") 1 5 :=
          .set 0 5 ⟨b!"5", [], by decide +kernel, ((C11_int_literal _ _).1 (by decide)).1, by decide, by decide⟩
        obtain ⟨m, hm, -⟩ := hv.available 1 5 false t d (by rw [hl]; rfl) hd (by rw [hn]; exact hw1.symm) hV (by
          refine ⟨fun h => (by cases h), ?_⟩
          rintro ⟨j, hj, h0, -⟩
          obtain rfl : j = 0 := by omega
          exact absurd h0 (by decide +kernel))
        unfold DocOp.since at hm
        simp [happ] at hm

/-- A program with a branch. -/
def acceptSample : Bytes := b!"#pragma version 8\ntxn Fee\nbnz end\nerr\nend:\nint 1\nreturn"

theorem acceptSample_words : ∀ k, (words (tokens acceptSample) k).map (fun t : Token => t.v) =
    ([[b!"#pragma", b!"version", b!"8"], [b!"txn", b!"Fee"], [b!"bnz", b!"end"], [b!"err"], [b!"end:"], [b!"int", b!"1"], [b!"return"]][k]?).getD [] := by
  intro k
  by_cases hk : k < 7
  · have : ∀ k < 7, (words (tokens acceptSample) k).map (fun t : Token => t.v) =
      ([[b!"#pragma", b!"version", b!"8"], [b!"txn", b!"Fee"], [b!"bnz", b!"end"], [b!"err"], [b!"end:"], [b!"int", b!"1"], [b!"return"]][k]?).getD [] := by
      decide +kernel
    exact this k hk
  · rw [List.getElem?_eq_none (by simp; omega)]
    have hc : lineCount (tokens acceptSample) = 7 := by decide +kernel
    cases hw : words (tokens acceptSample) k with
    | nil => rfl
    | cons t rest =>
      have := words_lt (src := acceptSample) (k := k) (by rw [hw]; simp)
      omega

/-- The text is tidy, and nothing at all is reported for it. -/
theorem acceptSample_tidy : Tidy (tokens acceptSample) ∧ ∃ r, process sampleEnv acceptSample = some r ∧ NoErrors r := by
  constructor
  · intro k ver _
    rw [acceptSample_words k]
    match k with
    | 0 => exact fun n h => ⟨rfl, by
        obtain ⟨s, rest, h1, h2, -, h3⟩ := h
        cases h1
        have := ((C11_int_literal b!"8" 8).1 (by decide)).1
        have := C11_unambiguous _ _ _ h2 this h3 (by decide)
        omega⟩
    | 1 => exact ⟨by decide, by decide, fun h => absurd h (by decide), fun h => absurd h (by decide), fun h => absurd h (by decide)⟩
    | 2 => exact ⟨by decide, by decide, fun h => absurd h (by decide), fun h => absurd h (by decide), fun h => absurd h (by decide)⟩
    | 3 => exact ⟨by decide, by decide, fun h => absurd h (by decide), fun h => absurd h (by decide), fun h => absurd h (by decide)⟩
    | 4 => exact rfl
    | 5 => exact ⟨by decide, by decide, fun h => absurd h (by decide), fun h => absurd h (by decide), fun h => absurd h (by decide)⟩
    | 6 => exact ⟨by decide, by decide, fun h => absurd h (by decide), fun h => absurd h (by decide), fun h => absurd h (by decide)⟩
    | k + 7 => exact trivial
  · have h : (process sampleEnv acceptSample).map (·.diagnostics) = some [] := by decide +kernel
    obtain ⟨r, hr, h⟩ := Option.map_eq_some_iff.1 h
    exact ⟨r, hr, fun d hd => by rw [h] at hd; cases hd⟩

end Teal.Props
