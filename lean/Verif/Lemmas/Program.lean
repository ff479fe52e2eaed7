import Verif.Spec.Program
import Verif.Lemmas.Reprint
import Verif.Props.Layout

/-! From the lines of a text to the listing. -/

namespace Teal
open Spec P Props

/-- A line that is read to an instruction, or has no words, gives no parse diagnostics. -/
theorem processLine_clean (addrOk : Bytes → Bool) (s : Carry) (k : Nat) (line : List Token) (hok : LineOk k line) (o : LineOut)
    (h : processLine addrOk s line = some o) (op : Op) (hops : o.ctx.ops = [op]) (hne : op ≠ .empty ∨ lineWords line = []) :
    ∀ d ∈ o.ctx.diag, ∀ why, d.kind ≠ .parse why := by
  cases line with
  | nil => injection h with h; subst h; simp
  | cons curr rest =>
    by_cases hc : curr.t = .comment
    · unfold processLine at h
      simp only [if_pos hc] at h
      split at h <;> (injection h with h; subst h; simp)
    · have hval : ∀ t ∈ curr :: rest, t.t = .value ∧ t.v ≠ [] := by
        rcases hok.shape with ⟨c, h1, h2⟩ | h
        · injection h1 with h1; rw [h1] at hc; exact absurd h2 hc
        · exact h
      have hne : op ≠ .empty := by
        refine hne.resolve_right ?_
        rw [lineWords_values fun t ht => (hval t ht).1]
        simp
      have hno := processLine_ops addrOk s k _ hok o h
      rw [lineWords_values fun t ht => (hval t ht).1, List.map_cons, opsOf, hops] at hno
      by_cases hcol : curr.v.getLast? = some chColon
      · rw [if_pos hcol] at hno
        unfold processLine at h
        simp only [if_neg hc, if_pos hcol] at h
        split at h
        · rename_i hn
          rw [if_pos hn] at hno
          injection hno with hno
          exact absurd hno hne
        · injection h with h; subst h; simp
      · rw [if_neg hcol] at hno
        by_cases hp : curr.v = b!"#pragma"
        · unfold processLine at h
          simp only [if_neg hc, if_neg hcol, if_neg (hval curr (by simp)).2, if_pos hp] at h
          have hend := opPragma_end curr rest s.version
          generalize P.opPragma _ = out at hend h
          cases hend with
          | good d n hn hts hvr hops' hdiag =>
            simp only [recovered, Option.map_some, Option.some.injEq] at h
            subst h
            show ∀ x ∈ d.diag, _
            rw [hdiag]; simp
          | bad d hn hts hvr hops' =>
            rw [pragmaOf_eq, List.map_cons] at hn
            rw [if_pos hp, hn] at hno
            injection hno with hno
            exact absurd hno hne
        · rw [if_neg hp] at hno
          cases he : opsGet curr.v with
          | none =>
            rw [he] at hno
            injection hno with hno
            exact absurd hno hne
          | some e =>
            have h1 := processLine_instr addrOk s k curr rest e hok (hval curr (by simp)).1 he o h
            rw [he] at hno
            dsimp only at hno
            generalize evalShape addrOk e.shape s.version (rest.map Token.v) = r at h1 hno
            match r, h1, hno with
            | none, _, hno =>
              injection hno with hno
              exact absurd hno hne
            | some (x, []), h1, _ =>
              rw [h1.2]
              intro d hd why
              unfold availDiags at hd
              rcases List.mem_append.1 hd with hd | hd <;> (split at hd <;> simp at hd <;> (subst hd; simp))
            | some (x, _ :: _), _, hno => simp [readOps] at hno

/-- A text whose lines are read to one instruction each. -/
theorem program_of_lines (env : Env) (src : Bytes) (os : List Op) (hl : lineCount (tokens src) = os.length)
    (ho : ∀ (k ver : Nat) (o : Op), os[k]? = some o → VersionAt (tokens src) k ver →
      opsOf env.addrOk ver ((words (tokens src) k).map Token.v) = [o]) :
    ∃ r, process env src = some r ∧ r.listing = os ∧ NoSurplus r ∧ VersionAt (tokens src) os.length r.version ∧
      ((∀ (k : Nat) (o : Op), os[k]? = some o → o ≠ .empty ∨ words (tokens src) k = []) → ∀ d ∈ r.diagnostics, ∀ why, d.kind ≠ .parse why) := by
  obtain ⟨qs, hr, he⟩ := process_eq env src
  have hqs : qs.length = os.length := by rw [hr.length, linesOf_length]; exact hl
  have hop : ∀ (k : Nat) (q : LineOut), qs[k]? = some q → ∃ o, os[k]? = some o ∧ q.ctx.ops = [o] := by
    intro k q hq
    have hk : k < os.length := by rw [← hqs]; exact (List.getElem?_eq_some_iff.1 hq).1
    have hk' : k < lineCount (tokens src) := by rw [hl]; exact hk
    obtain ⟨q', h1, h2⟩ := line_ops env.addrOk _ qs hr k hk'
    rw [hq] at h1
    cases h1
    have hver := (carry_version env.addrOk _ qs hr k (Nat.le_of_lt hk') _).2 rfl
    refine ⟨os[k], List.getElem?_eq_getElem hk, ?_⟩
    rw [h2]
    exact ho k _ _ (List.getElem?_eq_getElem hk) hver
  have hone : ∀ q ∈ qs, ∃ op, q.ctx.ops = [op] := by
    intro q hq
    obtain ⟨k, hk⟩ := List.mem_iff_getElem?.1 hq
    obtain ⟨o, -, h1⟩ := hop k q hk
    exact ⟨o, h1⟩
  have hns : ∀ d ∈ qs.flatMap (·.ctx.diag), d.kind ≠ .parse .tooManyValues := by
    intro d hd hk
    obtain ⟨q, hq, hd⟩ := List.mem_flatMap.1 hd
    obtain ⟨s', line, -, hf⟩ := hr.mem q hq
    rcases hf.ops with ⟨op, -, h2⟩ | ⟨op, t, h2, -, -⟩
    · exact h2 d hd hk
    · obtain ⟨o, h1⟩ := hone q hq
      rw [h1] at h2
      simp at h2
  obtain ⟨r, har⟩ := process_some_of_noSurplus env _ qs hr hns
  obtain ⟨lds, l1, l2, l3, -, -, -, -, -, -, l8, -⟩ := assemble_eq har
  refine ⟨r, by rw [he, har], ?_, ?_, ?_, ?_⟩
  · rw [l2]
    apply List.ext_getElem?
    intro k
    by_cases hk : k < qs.length
    · obtain ⟨o, h1, h2⟩ := hop k qs[k] (List.getElem?_eq_getElem hk)
      rw [one_op hone k qs[k] (List.getElem?_eq_getElem hk), h1, h2]
      rfl
    · rw [List.getElem?_eq_none (by rw [one_op_length hone]; omega), List.getElem?_eq_none (by omega)]
  · intro d hd
    rw [l3] at hd
    simp only [List.mem_append] at hd
    rcases hd with (hd | hd) | hd
    · obtain ⟨e, -, rfl⟩ := List.mem_map.1 hd
      intro h; cases h
    · exact hns d hd
    · rw [lintDiags_eq _ _ _ l1] at hd
      obtain ⟨e, -, rfl⟩ := List.mem_map.1 hd
      intro h; cases h
  · rw [l8, last_carry, hqs]
    exact (carry_version env.addrOk _ qs hr os.length (Nat.le_of_eq hl.symm) _).2 rfl
  · intro hgood d hd why
    rw [l3] at hd
    simp only [List.mem_append] at hd
    rcases hd with (hd | hd) | hd
    · obtain ⟨e, -, rfl⟩ := List.mem_map.1 hd
      intro h; cases h
    · obtain ⟨q, hq, hd⟩ := List.mem_flatMap.1 hd
      obtain ⟨k, hk⟩ := List.mem_iff_getElem?.1 hq
      have hlt : k < lineCount (tokens src) := by rw [hl, ← hqs]; exact (List.getElem?_eq_some_iff.1 hk).1
      obtain ⟨q', h1, hpl, -⟩ := hr.get k _ ((linesOf_get src k _).2 ⟨hlt, rfl⟩)
      rw [hk] at h1
      cases h1
      obtain ⟨o, h2, h3⟩ := hop k q hk
      refine processLine_clean env.addrOk _ k _ (lineOk (readTokens_seq src) k) q hpl o h3 ?_ d hd why
      rw [lineWords_eq]
      rcases hgood k o h2 with h4 | h4
      · exact .inl h4
      · exact .inr (by rw [show words (readTokens src).1 k = [] from h4]; rfl)
    · rw [lintDiags_eq _ _ _ l1] at hd
      obtain ⟨e, -, rfl⟩ := List.mem_map.1 hd
      intro h; cases h

theorem ops_of_instr {addrOk : Bytes → Bool} {ver : Nat} {w : Bytes} {ws : List Bytes} {o : Op} (hw : w ≠ b!"gitxna")
    (h : Instr addrOk ver w ws o) : opsOf addrOk ver (w :: ws) = [o] := by
  obtain ⟨e, he⟩ := instr_known h
  exact ops_instr (sh := e.shape) (by rw [he]; rfl) (eval_of_instr he hw h)

theorem instr_nonempty {addrOk : Bytes → Bool} {ver : Nat} {w : Bytes} {ws : List Bytes} {o : Op} (h : Instr addrOk ver w ws o) :
    o ≠ .empty := by
  cases h <;> simp

/-- Line by line, what a program is read to. -/
theorem program_lines {addrOk : Bytes → Bool} {ver : Nat} {ls : List (List Bytes)} {os : List Op} (h : Program addrOk ver ls os)
    (ts : List Token) (k : Nat) (hk : VersionAt ts k ver) (hw : ∀ (j : Nat) (ws : List Bytes), ls[j]? = some ws → (words ts (k + j)).map Token.v = ws) :
    ls.length = os.length ∧ ∀ (j : Nat) (o : Op), os[j]? = some o → ∃ v, VersionAt ts (k + j) v ∧
      opsOf addrOk v ((words ts (k + j)).map Token.v) = [o] ∧ (o ≠ .empty ∨ words ts (k + j) = []) := by
  have step : ∀ {ver v : Nat} {ws : List Bytes} {ls : List (List Bytes)} {o : Op} {os : List Op},
      (∀ k, VersionAt ts k v → (∀ (j : Nat) (ws : List Bytes), ls[j]? = some ws → (words ts (k + j)).map Token.v = ws) →
        ls.length = os.length ∧ ∀ (j : Nat) (o : Op), os[j]? = some o → ∃ v, VersionAt ts (k + j) v ∧
          opsOf addrOk v ((words ts (k + j)).map Token.v) = [o] ∧ (o ≠ .empty ∨ words ts (k + j) = [])) →
      ∀ k, VersionAt ts k ver → (∀ (j : Nat) (w : List Bytes), (ws :: ls)[j]? = some w → (words ts (k + j)).map Token.v = w) →
      (VersionAt ts k ver → (words ts k).map Token.v = ws → VersionAt ts (k + 1) v) → opsOf addrOk ver ws = [o] → (o ≠ .empty ∨ ws = []) →
      (ws :: ls).length = (o :: os).length ∧ ∀ (j : Nat) (x : Op), (o :: os)[j]? = some x → ∃ v, VersionAt ts (k + j) v ∧
          opsOf addrOk v ((words ts (k + j)).map Token.v) = [x] ∧ (x ≠ .empty ∨ words ts (k + j) = []) := by
    intro ver v ws ls o os ih k hk hw hnext hops hne
    have h0 : (words ts k).map Token.v = ws := hw 0 ws rfl
    obtain ⟨h1, h2⟩ := ih (k + 1) (hnext hk h0) (fun j w hj => by
      have := hw (j + 1) w (by simpa using hj)
      rwa [show k + (j + 1) = k + 1 + j by omega] at this)
    refine ⟨by simp [h1], ?_⟩
    intro j x hx
    cases j with
    | zero =>
      simp only [List.getElem?_cons_zero, Option.some.injEq] at hx
      subst hx
      refine ⟨ver, hk, by rw [Nat.add_zero, h0]; exact hops, ?_⟩
      rcases hne with h | h
      · exact .inl h
      · exact .inr (List.map_eq_nil_iff.1 (by rw [Nat.add_zero, h0]; exact h))
    | succ j =>
      have := h2 j x (by simpa using hx)
      rwa [show k + 1 + j = k + (j + 1) by omega] at this
  induction h generalizing k with
  | nil ver => exact ⟨rfl, by simp⟩
  | blank ver ls os h ih =>
    refine step (ver := ver) (fun k h1 h2 => ih k h1 h2) k hk hw (fun hv hws => .keep k ver hv ?_) rfl (.inr rfl)
    rintro n ⟨_, _, h1, _⟩
    rw [hws] at h1; cases h1
  | label ver n hn ls os h ih =>
    refine step (ver := ver) (fun k h1 h2 => ih k h1 h2) k hk hw (fun hv hws => .keep k ver hv ?_) ?_ (.inl (by simp))
    · rintro m ⟨_, _, h1, _⟩
      rw [hws] at h1; simp at h1
    · rw [opsOf, if_pos (by simp [chColon]), if_neg (by simpa using hn)]
      simp
  | version ver s n hs h1 h2 ls os h ih =>
    refine step (ver := ver) (fun k h1 h2 => ih k h1 h2) k hk hw (fun hv hws => .set k n ?_) ?_ (.inl (by simp))
    · exact ⟨s, [], hws, hs, h1, by omega⟩
    · have hr : readInt s = some n := (C11_int_literal s n).2 ⟨hs, by omega⟩
      rw [opsOf, if_neg (by decide), if_pos rfl]
      simp only [pragmaOf]
      rw [hr]
      simp only [if_true]
      rw [if_neg (by omega)]
      simp only [List.cons.injEq, Op.pragma.injEq, and_true]
      omega
  | instr ver w ws o hg ho ls os h ih =>
    refine step (ver := ver) (fun k h1 h2 => ih k h1 h2) k hk hw (fun hv hws => .keep k ver hv ?_) (ops_of_instr hg ho) (.inl (instr_nonempty ho))
    rintro m ⟨_, _, h1, _⟩
    rw [hws] at h1
    injection h1 with h1
    obtain ⟨e, he⟩ := instr_known ho
    rw [h1, opsGet_pragma] at he
    cases he
  | gitxna ver x y z t f i hx ht hy hz ls os h ih =>
    refine step (ver := ver) (fun k h1 h2 => ih k h1 h2) k hk hw (fun hv hws => .keep k ver hv ?_) ?_ (.inl (by simp))
    · rintro m ⟨_, _, h1, _⟩
      rw [hws] at h1
      injection h1 with h1
      cases h1
    · refine ops_instr (sh := .gitxna) (by decide +kernel) ?_
      simp only [evalShape, word_bind, ret_iff]
      exact ⟨_, _, _, rfl, (C11_int_literal _ _).2 hx, _, _, _, rfl, arrayField_of hy, _, _, _, rfl, (C11_uint8 _ _).2 hz,
        by rw [Nat.mod_eq_of_lt ht], rfl⟩

end Teal
