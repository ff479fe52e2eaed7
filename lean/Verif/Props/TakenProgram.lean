import Verif.Props.Taken
import Verif.Props.Accept
import Verif.Props.Exact

/-!
# Properties C72 and C91: exactly the texts that are accepted
-/

namespace Teal.Props
open Teal Spec P

theorem taken_nonempty {addrOk : Bytes → Bool} {ver : Nat} {w : Bytes} {ws : List Bytes} {o : Op} (h : Taken addrOk ver w ws o) :
    o ≠ .empty := by
  cases h with
  | said _ _ _ _ h => exact instr_nonempty h
  | early _ _ _ _ _ _ h => exact instr_nonempty h
  | _ => simp

/-- Line by line, what a program is read to. -/
theorem taken_lines {addrOk : Bytes → Bool} {ver : Nat} {ls : List (List Bytes)} {os : List Op} (h : TakenProgram addrOk ver ls os)
    (ts : List Token) (hts : ∀ t ∈ ts, t.t = .value → Wordy t.v) (k : Nat) (hk : VersionAt ts k ver) (hw : ∀ (j : Nat) (ws : List Bytes), ls[j]? = some ws → (words ts (k + j)).map Token.v = ws) :
    ls.length = os.length ∧ ∀ (j : Nat) (o : Op), os[j]? = some o → ∃ v, VersionAt ts (k + j) v ∧
      opsOf addrOk v ((words ts (k + j)).map Token.v) = [o] ∧ (o ≠ .empty ∨ words ts (k + j) = []) := by
  have step : ∀ {ver v : Nat} {ws : List Bytes} {ls : List (List Bytes)} {o : Op} {os : List Op},
      (∀ k, VersionAt ts k v → (∀ (j : Nat) (ws : List Bytes), ls[j]? = some ws → (words ts (k + j)).map Token.v = ws) →
        ls.length = os.length ∧ ∀ (j : Nat) (o : Op), os[j]? = some o → ∃ v, VersionAt ts (k + j) v ∧
          opsOf addrOk v ((words ts (k + j)).map Token.v) = [o] ∧ (o ≠ .empty ∨ words ts (k + j) = [])) →
      ∀ k, VersionAt ts k ver → (∀ (j : Nat) (w : List Bytes), (ws :: ls)[j]? = some w → (words ts (k + j)).map Token.v = w) →
      (VersionAt ts k ver → (words ts k).map Token.v = ws → VersionAt ts (k + 1) v) → opsOf addrOk ver ws = [o] → (o ≠ .empty ∨ ws = []) →
      (ws :: ls).length = (o :: os).length ∧ ∀ (j : Nat) (x : Op), (o :: os)[j]? = some x → ∃ v, VersionAt ts (k + j) v ∧
          opsOf addrOk v ((words ts (k + j)).map Token.v) = [x] ∧ (x ≠ .empty ∨ words ts (k + j) = []) := by
    intro ver v ws ls o os ih k hk hw hnext hops hne
    have h0 : (words ts k).map Token.v = ws := hw 0 ws rfl
    obtain ⟨h1, h2⟩ := ih (k + 1) (hnext hk h0) (fun j w hj => by
      have := hw (j + 1) w (by simpa using hj)
      rwa [show k + (j + 1) = k + 1 + j by omega] at this)
    refine ⟨by simp [h1], ?_⟩
    intro j x hx
    cases j with
    | zero =>
      simp only [List.getElem?_cons_zero, Option.some.injEq] at hx
      subst hx
      refine ⟨ver, hk, by rw [Nat.add_zero, h0]; exact hops, ?_⟩
      rcases hne with h | h
      · exact .inl h
      · exact .inr (List.map_eq_nil_iff.1 (by rw [Nat.add_zero, h0]; exact h))
    | succ j =>
      have := h2 j x (by simpa using hx)
      rwa [show k + 1 + j = k + (j + 1) by omega] at this
  have wordy : ∀ (k : Nat) (ws : List Bytes), (words ts k).map Token.v = ws → ∀ x ∈ ws, Wordy x := by
    rintro k _ rfl x hx
    obtain ⟨u, hu, rfl⟩ := List.mem_map.1 hx
    have := mem_words.1 hu
    exact hts u this.1 this.2.2
  induction h generalizing k with
  | nil ver => exact ⟨rfl, by simp⟩
  | blank ver ls os h ih =>
    refine step (ver := ver) (fun k h1 h2 => ih k h1 h2) k hk hw (fun hv hws => .keep k ver hv ?_) rfl (.inr rfl)
    rintro n ⟨_, _, h1, _⟩
    rw [hws] at h1; cases h1
  | label ver n hn dropped ls os h ih =>
    refine step (ver := ver) (fun k h1 h2 => ih k h1 h2) k hk hw (fun hv hws => .keep k ver hv ?_) ?_ (.inl (by simp))
    · rintro m ⟨_, _, h1, _⟩
      rw [hws] at h1
      injection h1 with h1
      have := congrArg List.getLast? h1
      simp at this
    · rw [opsOf, if_pos (by simp [chColon]), if_neg (by simpa using hn)]
      simp
  | version ver s n hs h1 dropped ls os h ih =>
    refine step (ver := ver) (fun k h1 h2 => ih k h1 h2) k hk hw (fun hv hws => .set k n ?_) ?_ (.inl (by simp))
    · exact ⟨s, dropped, hws, hs.1, h1, hs.2⟩
    · have hr : readInt s = some n := (C11_int_literal s n).2 hs
      rw [opsOf, if_neg (by decide), if_pos rfl]
      simp only [pragmaOf]
      rw [hr]
      simp only [if_true]
      rw [if_neg (by omega)]
  | instr ver w ws o ho ls os h ih =>
    obtain ⟨e, he⟩ := Option.ne_none_iff_exists'.1 (taken_known ho)
    have h0 := wordy k _ (hw 0 _ rfl)
    refine step (ver := ver) (fun k h1 h2 => ih k h1 h2) k hk hw (fun hv hws => .keep k ver hv ?_)
      (ops_instr (sh := e.shape) (by rw [he]; rfl) (eval_of_taken he (fun x hx => h0 x (List.mem_cons_of_mem _ hx)) ho)) (.inl (taken_nonempty ho))
    rintro m ⟨_, _, h1, _⟩
    rw [hws] at h1
    injection h1 with h1
    rw [h1, opsGet_pragma] at he
    cases he

theorem taken_program (env : Env) (src : Bytes) (os : List Op) (h : TakenProgram env.addrOk 1 (wordLines (tokens src)) os) :
    ∃ r, process env src = some r ∧ r.listing = os ∧ ∀ d ∈ r.diagnostics, ∀ why, d.kind ≠ .parse why := by
  have hget : ∀ (j : Nat) (ws : List Bytes), (wordLines (tokens src))[j]? = some ws → (words (tokens src) (0 + j)).map Token.v = ws := by
    intro j ws hj
    unfold wordLines at hj
    rw [List.getElem?_map] at hj
    obtain ⟨k, h1, h2⟩ := Option.map_eq_some_iff.1 hj
    rw [List.getElem?_range (by
      have := (List.getElem?_eq_some_iff.1 h1).1
      simpa using this)] at h1
    injection h1 with h1
    rw [Nat.zero_add, h1]
    exact h2
  obtain ⟨hl, hops⟩ := taken_lines h (tokens src) (fun t ht hv => (wordy_token ht hv).1) 0 .first hget
  have hl' : lineCount (tokens src) = os.length := by
    rw [← hl]; simp [wordLines]
  obtain ⟨qs, hr, -⟩ := process_eq env src
  obtain ⟨r, h1, h2, -, -, h3⟩ := program_of_lines env src os hl' (by
    intro k ver o hk hv
    obtain ⟨v, hv', ho, -⟩ := hops k o hk
    rw [Nat.zero_add] at hv' ho
    have hlt : k ≤ lineCount (readTokens src).1 := by
      rw [show lineCount (readTokens src).1 = os.length from hl']
      exact Nat.le_of_lt (List.getElem?_eq_some_iff.1 hk).1
    rw [(carry_version env.addrOk src qs hr k hlt ver).1 hv, ← (carry_version env.addrOk src qs hr k hlt v).1 hv']
    exact ho)
  refine ⟨r, h1, h2, h3 ?_⟩
  intro k o hk
  obtain ⟨v, -, -, ho⟩ := hops k o hk
  rw [Nat.zero_add] at ho
  exact ho

/-- The lines from `k` on are a program if nothing is reported on them. -/
theorem lines_taken {env : Env} {src : Bytes} {r : ProcessResult} (hr : process env src = some r)
    (hno : ∀ d ∈ r.diagnostics, ∀ why, d.kind ≠ .parse why) :
    ∀ (m k ver : Nat), k + m = lineCount (tokens src) → VersionAt (tokens src) k ver →
      ∃ os, TakenProgram env.addrOk ver ((wordLines (tokens src)).drop k) os := by
  intro m
  induction m with
  | zero =>
    intro k ver hk hv
    refine ⟨[], ?_⟩
    rw [List.drop_eq_nil_of_le (by simp [wordLines]; omega)]
    exact .nil _
  | succ m ih =>
    intro k ver hk hv
    have hlt : k < lineCount (tokens src) := by omega
    have hd : (wordLines (tokens src)).drop k = (words (tokens src) k).map Token.v :: (wordLines (tokens src)).drop (k + 1) := by
      rw [List.drop_eq_getElem_cons (by simp [wordLines]; exact hlt)]
      simp [wordLines]
    rw [hd]
    have hkeep : (∀ n, ¬ SetsVersion ((words (tokens src) k).map Token.v) n) →
        ∃ os, TakenProgram env.addrOk ver ((wordLines (tokens src)).drop (k + 1)) os := fun h => ih (k + 1) ver (by omega) (.keep k ver hv h)
    cases hw : words (tokens src) k with
    | nil =>
      rw [hw] at hkeep
      obtain ⟨os, hos⟩ := hkeep (by rintro n ⟨s, rest, h, -⟩; cases h)
      exact ⟨_, .blank _ _ _ hos⟩
    | cons t rest =>
      rw [hw] at hkeep
      simp only [List.map_cons] at hkeep ⊢
      by_cases hc : t.v.getLast? = some chColon
      · have hne : t.v.dropLast ≠ [] := by
          intro h0
          have hv58 : t.v = [chColon] := by
            have hnil : t.v ≠ [] := by intro h; rw [h] at hc; cases hc
            rw [← List.dropLast_append_getLast hnil, h0]
            rw [List.getLast?_eq_some_getLast hnil] at hc
            injection hc with hc
            rw [hc]; rfl
          obtain ⟨os, hr', ha⟩ := process_run hr
          obtain ⟨o, ho, hpl, -⟩ := hr'.get k _ ((linesOf_get src k _).2 ⟨hlt, rfl⟩)
          obtain ⟨h1, h2, -⟩ := lineTokens_words _ k t rest hw
          rw [show lineTokens (readTokens src).1 k = t :: rest from h1] at hpl
          obtain ⟨d, hd, hdk⟩ := colon_line h2 hv58 hpl
          exact hno d ((parse_diags hr' ha k o ho d ⟨_, hdk⟩).2 hd).1 _ hdk
        obtain ⟨os, hos⟩ := hkeep (by rintro n ⟨s, rest, h, -⟩; injection h with h; rw [h] at hc; revert hc; decide)
        have hn : t.v = t.v.dropLast ++ [58] := by
          have hnil : t.v ≠ [] := by intro h; rw [h] at hc; cases hc
          rw [List.getLast?_eq_some_getLast hnil] at hc
          injection hc with hc
          conv => lhs; rw [← List.dropLast_append_getLast hnil, hc]
        rw [hn]
        exact ⟨_, .label _ _ hne _ _ _ hos⟩
      · by_cases hp : t.v = b!"#pragma"
        · obtain ⟨n, hn⟩ := ((C24_pragma_partial env src r hr).1 k t (by rw [hw]; rfl) hp).1 (fun d hd _ => hno d hd)
          rw [hw] at hn
          obtain ⟨os, hos⟩ := ih (k + 1) n (by omega) (.set k n (by rw [hw]; exact hn))
          obtain ⟨s, more, he, hs, h1, h2⟩ := hn
          rw [List.map_cons] at he
          rw [he]
          exact ⟨_, .version _ s n ⟨hs, h2⟩ h1 more _ _ hos⟩
        · obtain ⟨os, hos⟩ := hkeep (by rintro n ⟨s, rest, h, -⟩; injection h with h; exact hp h)
          obtain ⟨o, ho⟩ := (C55_exact env src r hr k t rest ver hw hv hc hp).1.1 (fun d hd _ => hno d hd)
          exact ⟨_, .instr _ _ _ _ ho _ _ hos⟩

theorem taken_listing {env : Env} {src : Bytes} {os : List Op} {r : ProcessResult}
    (hp : TakenProgram env.addrOk 1 (wordLines (tokens src)) os) (hr : process env src = some r) : r.listing = os := by
  obtain ⟨r', h1, h2, -⟩ := taken_program env src os hp
  rw [hr] at h1
  injection h1 with h1
  rw [h1, h2]

theorem taken_reported {env : Env} {src : Bytes} {os : List Op} {r : ProcessResult}
    (hp : TakenProgram env.addrOk 1 (wordLines (tokens src)) os) (hr : process env src = some r) (rule : LintRule) (k : Nat) :
    Reported r rule k ↔ ⟨k, rule⟩ ∈ lintErrs env.maps os := by
  have hl := taken_listing hp hr
  constructor
  · rintro ⟨d, h1, h2, rfl⟩
    obtain ⟨k, h3, rfl⟩ := (lint_diag hr rule d).1 ⟨h1, h2⟩
    rw [← hl]; exact h3
  · intro h
    rw [← hl] at h
    obtain ⟨h1, h2⟩ := (lint_diag hr rule _).2 ⟨k, h, rfl⟩
    exact ⟨_, h1, h2, rfl⟩

/-- **C89** (for all texts whose words are taken without complaint) On which lines the linter reports something, and the
labels it names, as `C89_lines` says it of programs of the reference. -/
theorem C89_exact {env : Env} {src : Bytes} {os : List Op} {r : ProcessResult}
    (hp : TakenProgram env.addrOk 1 (wordLines (tokens src)) os) (hr : process env src = some r) (k : Nat) (n : Bytes) :
    (Reported r (.duplicateLabel n) k ↔ ∃ j, DefinedAt os n k ∧ j ≠ k ∧ DefinedAt os n j) ∧
    (Reported r (.unusedLabel n) k ↔ DefinedAt os n k ∧ ¬ ∃ i o, At os i o ∧ Refers o n) ∧
    (Reported r (.missingLabel n) k ↔ ∃ o, At os k o ∧ Refers o n ∧ ¬ ∃ j, DefinedAt os n j) ∧
    (Reported r .bJustBefore k ↔ ∃ n j, At os k (.branch .b n) ∧ k < j ∧ DefinedAt os n j ∧
      ∀ i, k < i → i < j → ∃ o, At os i o ∧ NoOp o ∧ ∀ n', ¬ DefinedAt os n' i) ∧
    (Reported r .pragmaAfterInstr k ↔ (∃ v, At os k (.pragma v)) ∧ ∃ i o, i < k ∧ At os i o ∧ (¬ NoOp o ∨ ∃ v, o = .pragma v)) := by
  refine ⟨?_, ?_, ?_, ?_, ?_⟩
  · rw [taken_reported hp hr]; exact (C27_duplicate_labels env.maps os k n).1
  · rw [taken_reported hp hr]; exact (C28_unused_labels env.maps os k n).1
  · rw [taken_reported hp hr]; exact C21_missing_rule env.maps os k n
  · rw [taken_reported hp hr]; exact C30_rule env.maps os k
  · rw [taken_reported hp hr]
    constructor
    · intro h
      obtain ⟨v, hv⟩ := C32_only_pragmas env.maps os k h
      exact ⟨⟨v, hv⟩, (C32_pragma_position env.maps os k v hv).1 h⟩
    · rintro ⟨⟨v, hv⟩, h⟩
      exact (C32_pragma_position env.maps os k v hv).2 h


theorem taken_loops {env : Env} {src : Bytes} {os : List Op} {r : ProcessResult}
    (hp : TakenProgram env.addrOk 1 (wordLines (tokens src)) os) (hr : process env src = some r) (k : Nat) :
    (Reported r .infiniteLoop k → ∃ n j, At os k (.branch .b n) ∧ DefinedAt os n j ∧ j < k ∧
      ∀ i rs c, j ≤ i → i ≤ k → Steps os (i, rs) c → j ≤ c.1 ∧ c.1 ≤ k ∧ ∀ o, At os c.1 o → ¬ Halts o) ∧
    (∀ n j, At os k (.branch .b n) → j < k → DefinedAt os n j → (∀ i, j < i → i < k → ¬ DefinedAt os n i) →
      (∀ i, j ≤ i → i ≤ k → ¬ Exit os j k i) → Reported r .infiniteLoop k) := by
  refine ⟨fun h => C31_infinite_loop env.maps os k ((taken_reported hp hr _ k).1 h), fun n j h1 h2 h3 h4 h5 => ?_⟩
  exact (taken_reported hp hr _ k).2 ((C31_rule env.maps os k).2 ⟨n, j, h1, h2, h3, h4, h5⟩)

theorem args_doc : ∀ d ∈ docOps, d.name = b!"args" → d.since true = some 5 ∧ d.since false = none := by decide +kernel

theorem mode_taken {env : Env} {src : Bytes} {r : ProcessResult} (h : process env src = some r) {k V : Nat} (hV : VersionAt (tokens src) k V)
    {sig : Bool} (hsig : sig = true ↔ SigAt (tokens src) k) {t : Token} (ht : (words (tokens src) k).head? = some t) {d : DocOp}
    (hd : d ∈ docOps) (hn : d.name = t.v) (m : ProgramMode) :
    ⟨.mode m, t.l, t.b, t.e⟩ ∈ r.diagnostics ↔ takenSince d sig = none ∧ m = if sig then .sig else .app := by
  unfold takenSince
  by_cases ha : d.name = b!"args"
  · rw [if_pos ha, (C22_args env src r h k V hV sig hsig t ht (hn ▸ ha)).1 m]
    obtain ⟨h1, h2⟩ := args_doc d hd ha
    cases sig
    · simp [h1]
    · simp [h2]
  · rw [if_neg ha]
    exact C23_mode_partial env src r h k sig hsig t ht d hd hn ha m

theorem version_taken {env : Env} {src : Bytes} {r : ProcessResult} (h : process env src = some r) {k V : Nat} (hV : VersionAt (tokens src) k V)
    {sig : Bool} (hsig : sig = true ↔ SigAt (tokens src) k) {t : Token} (ht : (words (tokens src) k).head? = some t) {d : DocOp}
    (hd : d ∈ docOps) (hn : d.name = t.v) (min cur : Nat) :
    ⟨.version min cur, t.l, t.b, t.e⟩ ∈ r.diagnostics ↔ takenSince d sig = some min ∧ V < min ∧ cur = V := by
  unfold takenSince
  by_cases ha : d.name = b!"args"
  · rw [if_pos ha, (C22_args env src r h k V hV sig hsig t ht (hn ▸ ha)).2 min cur]
    obtain ⟨h1, h2⟩ := args_doc d hd ha
    cases sig
    · simp only [Bool.not_false, h1, true_and, Option.some.injEq]
      constructor
      · rintro ⟨rfl, h3, h4⟩; exact ⟨rfl, h3, h4⟩
      · rintro ⟨rfl, h3, h4⟩; exact ⟨rfl, h3, h4⟩
    · simp [h2]
  · rw [if_neg ha]
    exact C22_version_partial env src r h k V hV sig hsig t ht d hd hn ha min cur

theorem accepted_iff (env : Env) (src : Bytes) (r : ProcessResult) (hr : process env src = some r) :
    NoErrors r ↔ ∃ os, AcceptedProgram env.addrOk src (tokens src) os := by
  have hlex : (∃ d ∈ r.diagnostics, ∃ m, d.kind = .lex m) ↔ (readTokens src).2 ≠ [] := by
    obtain ⟨os, hr', ha⟩ := process_run hr
    obtain ⟨lds, hl, hlist, hdg, -⟩ := assemble_eq ha
    constructor
    · rintro ⟨d, hd, m, hm⟩ h0
      rw [hdg, h0] at hd
      simp only [List.map_nil, List.nil_append, List.mem_append] at hd
      rcases hd with hd | hd
      · obtain ⟨o, ho, hd⟩ := List.mem_flatMap.1 hd
        obtain ⟨s', line, -, hf⟩ := hr'.mem o ho
        rcases hf.diagKind d hd with h1 | ⟨w, h1⟩
        · rw [hm] at h1; cases h1
        · rw [hm] at h1; cases h1
      · rw [lintDiags_eq _ _ _ hl] at hd
        obtain ⟨e, -, rfl⟩ := List.mem_map.1 hd
        cases hm
    · intro h
      cases he : (readTokens src).2 with
      | nil => exact absurd he h
      | cons e es =>
        refine ⟨lexDiag e, ?_, _, rfl⟩
        rw [hdg, he]
        simp
  have hsigs : ∀ k, ∃ sig : Bool, sig = true ↔ SigAt (tokens src) k := fun k => by
    rcases Classical.em (SigAt (tokens src) k) with h | h
    · exact ⟨true, by simp [h]⟩
    · exact ⟨false, by simp [h]⟩
  have hver : ∀ k t, (words (tokens src) k).head? = some t → ∃ V, VersionAt (tokens src) k V := fun k t hw => by
    obtain ⟨os, hr', -⟩ := process_run hr
    exact ⟨_, (carry_version env.addrOk src os hr' k
      (Nat.le_of_lt (words_lt (fun h => by rw [h] at hw; cases hw))) _).2 rfl⟩
  constructor
  · intro h
    have hno : ∀ d ∈ r.diagnostics, ∀ why, d.kind ≠ .parse why := fun d hd why hk => h d hd (by rw [hk]; rfl)
    obtain ⟨os, hp⟩ := lines_taken hr hno (lineCount (tokens src)) 0 1 (by omega) .first
    rw [List.drop_zero] at hp
    have hrep : ∀ rule k, severity (.lint rule) = .err → ¬ Reported r rule k := by
      rintro rule k hs ⟨d, hd, hk, -⟩
      exact h d hd (by rw [hk]; exact hs)
    refine ⟨os, ?_, hp, ?_, ?_, ?_, ?_, ?_⟩
    · intro hx
      obtain ⟨d, hd, m, hm⟩ := hlex.2 ((C05_error_iff src).2 hx)
      exact h d hd (by rw [hm]; rfl)
    · intro k V sig t d hw hd hn hV hs
      cases hm : takenSince d sig with
      | none =>
        exact absurd rfl (h _ ((mode_taken hr hV hs hw hd hn _).2 ⟨hm, rfl⟩))
      | some m =>
        refine ⟨m, rfl, Nat.le_of_not_lt fun hlt => ?_⟩
        exact absurd rfl (h _ ((version_taken hr hV hs hw hd hn m V).2 ⟨hm, hlt, rfl⟩))
    · intro i o n hi ho
      exact Classical.byContradiction fun hn => hrep (.missingLabel n) i rfl ((C89_exact hp hr i n).2.2.1.2 ⟨o, hi, ho, hn⟩)
    · intro n i j hi hj
      exact Classical.byContradiction fun hn => hrep (.duplicateLabel n) i rfl ((C89_exact hp hr i n).1.2 ⟨j, hi, Ne.symm hn, hj⟩)
    · intro k v hk i o hi ho
      have := fun hx => hrep .pragmaAfterInstr k rfl ((C89_exact hp hr k []).2.2.2.2.2 ⟨⟨v, hk⟩, i, o, hi, ho, hx⟩)
      exact ⟨Classical.byContradiction fun hx => this (.inl hx), fun v' hx => this (.inr ⟨v', hx⟩)⟩
    · intro k j n hk hj hlt
      refine Classical.byContradiction fun hx => hrep .infiniteLoop k rfl ((taken_loops hp hr k).2 n j hk hlt hj ?_ ?_)
      · intro i h1 h2 h3
        refine absurd (Classical.byContradiction fun hn => hrep (.duplicateLabel n) i rfl
          ((C89_exact hp hr i n).1.2 ⟨j, h3, Ne.symm hn, hj⟩)) (by omega : ¬ i = j)
      · exact fun i h1 h2 h3 => hx ⟨i, h1, h2, h3⟩
  · rintro ⟨os, hc, hp, hav, hdef, huniq, hfirst, hloop⟩ d hd hs
    cases hk : d.kind with
    | lex m => exact hc ((C05_error_iff src).1 (hlex.1 ⟨d, hd, m, hk⟩))
    | parse why =>
      obtain ⟨r', h1, -, h2⟩ := taken_program env src os hp
      rw [hr] at h1
      injection h1 with h1
      exact h2 d (h1 ▸ hd) why hk
    | mode md =>
      obtain ⟨k, t, hw, hl, hb, he, e, he1, he2⟩ := C22_only env src r hr d hd (.inl ⟨md, hk⟩)
      have htl := (mem_words.1 (List.mem_of_mem_head? hw)).2.1
      obtain ⟨V, hV⟩ := hver k t hw
      have hde : d = ⟨.mode md, t.l, t.b, t.e⟩ := by
        cases d; simp only at hk hl hb he; rw [hk, hl, hb, he, htl]
      obtain ⟨sig, hsig⟩ := hsigs k
      have hs := (mode_taken hr hV hsig hw he1 he2 md).1 (hde ▸ hd)
      obtain ⟨m, hm, -⟩ := hav k V sig t e hw he1 he2 hV hsig
      rw [hs.1] at hm; cases hm
    | version min cur =>
      obtain ⟨k, t, hw, hl, hb, he, e, he1, he2⟩ := C22_only env src r hr d hd (.inr ⟨min, cur, hk⟩)
      have htl := (mem_words.1 (List.mem_of_mem_head? hw)).2.1
      obtain ⟨V, hV⟩ := hver k t hw
      have hde : d = ⟨.version min cur, t.l, t.b, t.e⟩ := by
        cases d; simp only at hk hl hb he; rw [hk, hl, hb, he, htl]
      obtain ⟨sig, hsig⟩ := hsigs k
      have hs := (version_taken hr hV hsig hw he1 he2 min cur).1 (hde ▸ hd)
      obtain ⟨m, hm, hle⟩ := hav k V sig t e hw he1 he2 hV hsig
      rw [hs.1] at hm
      injection hm with hm
      omega
    | lint rule =>
      have hrep : Reported r rule d.l := ⟨d, hd, hk, rfl⟩
      cases rule with
      | duplicateLabel n =>
        obtain ⟨j, h1, h2, h3⟩ := (C89_exact hp hr _ n).1.1 hrep
        exact h2 (huniq n j _ h3 h1)
      | unusedLabel => rw [hk] at hs; cases hs
      | unreachable => rw [hk] at hs; cases hs
      | bJustBefore => rw [hk] at hs; cases hs
      | missingLabel n =>
        obtain ⟨o, h1, h2, h3⟩ := (C89_exact hp hr _ n).2.2.1.1 hrep
        exact h3 (hdef _ o n h1 h2)
      | infiniteLoop =>
        rw [taken_reported hp hr] at hrep
        obtain ⟨n, j, h1, h2, h3, -, h4⟩ := (C31_rule env.maps os d.l).1 hrep
        obtain ⟨i, h5, h6, h7⟩ := hloop _ j n h1 h3 h2
        exact h4 i h5 h6 h7
      | pragmaAfterInstr =>
        obtain ⟨⟨v, h1⟩, i, o, h2, h3, h4⟩ := (C89_exact hp hr _ []).2.2.2.2.1 hrep
        have := hfirst _ v h1 i o h2 h3
        rcases h4 with h4 | ⟨v', h4⟩
        · exact h4 this.1
        · exact this.2 v' h4

/-- **C72** (exactly) A text is read without complaint about its words exactly if the code takes its lines for a program,
and that program is the listing then. -/
theorem C72_exact (env : Env) (src : Bytes) (os : List Op) :
    (∃ r, process env src = some r ∧ r.listing = os ∧ ∀ d ∈ r.diagnostics, ∀ why, d.kind ≠ .parse why) ↔
      TakenProgram env.addrOk 1 (wordLines (tokens src)) os := by
  constructor
  · rintro ⟨r, hr, rfl, hno⟩
    obtain ⟨os, hp⟩ := lines_taken hr hno (lineCount (tokens src)) 0 1 (by omega) .first
    rw [List.drop_zero] at hp
    rw [taken_listing hp hr]
    exact hp
  · exact taken_program env src os

/-- **C91** (exactly) A text is processed without an error exactly if it is an accepted program, and that program is the
listing then.  An accepted program is a valid one, but for what the code takes beyond the reference. -/
theorem C91_exact (env : Env) (src : Bytes) (os : List Op) :
    (∃ r, process env src = some r ∧ r.listing = os ∧ NoErrors r) ↔ AcceptedProgram env.addrOk src (tokens src) os := by
  constructor
  · rintro ⟨r, hr, rfl, h⟩
    obtain ⟨os, ho⟩ := (accepted_iff env src r hr).1 h
    rw [taken_listing ho.program hr]
    exact ho
  · intro h
    obtain ⟨r, hr, hl, -⟩ := taken_program env src os h.program
    exact ⟨r, hr, hl, (accepted_iff env src r hr).2 ⟨os, h⟩⟩

/-- A text that is no valid program and is accepted: a label with words behind it, and a version above 255 with a word behind it. -/
example : AcceptedProgram sampleEnv.addrOk b!"x: int 1\n#pragma version 300 y\nint 1" (tokens b!"x: int 1\n#pragma version 300 y\nint 1")
    [.label b!"x", .pragma 44, .int 1] := by
  have h : (process sampleEnv b!"x: int 1\n#pragma version 300 y\nint 1").map (fun r => (r.listing, r.diagnostics.map (·.kind))) =
      some ([.label b!"x", .pragma 44, .int 1], [.lint (.unusedLabel b!"x")]) := by decide +kernel
  obtain ⟨r, hr, h⟩ := Option.map_eq_some_iff.1 h
  injection h with h1 h2
  refine (C91_exact _ _ _).1 ⟨r, hr, h1, ?_⟩
  intro d hd hs
  have := List.mem_map_of_mem (f := fun d : Diag => d.kind) hd
  rw [h2] at this
  simp only [List.mem_singleton] at this
  rw [this] at hs; cases hs

end Teal.Props
