import Verif.Lemmas.Reprint
import Verif.Lemmas.Program

/-!
# C26: printing a program and reading it again; C13, C14: constants in programs
-/

namespace Teal.Props
open Teal Spec P

/-- The words of a text. -/
theorem token_ok {l c : Nat} {s : Bytes} {ts : List Token} {err : Option (Nat × Nat)} (h : Lexes l c s ts err) :
    ∀ t ∈ ts, t.t = .value → WordOk t.v := by
  induction h with
  | done => simp
  | blank l c x rest ts err hx h ih => exact ih
  | eol l c raw rest ts err hraw h ih =>
    intro t ht hv
    rcases List.mem_cons.1 ht with rfl | ht
    · cases hv
    · exact ih t ht hv
  | comment l c v rest ts err hv hrest h ih =>
    intro t ht hv
    rcases List.mem_cons.1 ht with rfl | ht
    · cases hv
    · exact ih t ht hv
  | bare l c v rest ts err hne hq hsl hv hrest h ih =>
    intro t ht _
    rcases List.mem_cons.1 ht with rfl | ht
    · exact .inl ⟨hne, hq, hsl, hv⟩
    · exact ih t ht ‹_›
  | quoted l c body rest ts err hbody hlast h ih =>
    intro t ht _
    rcases List.mem_cons.1 ht with rfl | ht
    · exact .inr ⟨_, rfl⟩
    · exact ih t ht ‹_›
  | unterminated => simp

theorem words_ok (src : Bytes) (k : Nat) : ∀ x ∈ (words (tokens src) k).map Token.v, WordOk x := by
  intro x hx
  obtain ⟨t, ht, rfl⟩ := List.mem_map.1 hx
  obtain ⟨h1, -, h3⟩ := mem_words.1 ht
  obtain ⟨err, h, -⟩ := readTokens_lexes src
  exact token_ok h t h1 h3

/-- Version pragmas, from what they are read to. -/
theorem setsVersion_ops {addrOk : Bytes → Bool} {ver : Nat} {ws : List Bytes} {o : Op} (h : opsOf addrOk ver ws = [o]) :
    (∀ n, SetsVersion ws n → o = .pragma (n % 256)) ∧ (∀ m, o = .pragma m → ∃ n, SetsVersion ws n ∧ m = n % 256) := by
  refine ⟨?_, ?_⟩
  · rintro n ⟨s, rest, rfl, hl, h1, h2⟩
    have hr : readInt s = some n := (C11_int_literal s n).2 ⟨hl, h2⟩
    rw [opsOf, if_neg (by decide), if_pos rfl] at h
    simp only [pragmaOf, if_true] at h
    rw [hr] at h
    simp only [if_neg (show ¬ n < 1 by omega)] at h
    injection h with h
    exact h.symm
  · rintro m rfl
    cases ws with
    | nil => simp [opsOf] at h
    | cons w ws =>
      rw [opsOf] at h
      split at h
      · split at h <;> simp at h
      split at h
      · rename_i hw
        subst hw
        match ws with
        | [] => simp [pragmaOf] at h
        | [_] => simp [pragmaOf] at h
        | v :: n :: rest =>
          simp only [pragmaOf] at h
          by_cases hv : v = b!"version"
          · rw [if_pos hv] at h
            cases hr : readInt n with
            | none => rw [hr] at h; simp at h
            | some k =>
              rw [hr] at h
              dsimp only at h
              by_cases hk : k < 1
              · rw [if_pos hk] at h; simp at h
              · rw [if_neg hk] at h
                simp only [List.cons.injEq, Op.pragma.injEq, and_true] at h
                have := (C11_int_literal n k).1 hr
                exact ⟨k, ⟨n, rest, by rw [hv], this.1, by omega, this.2⟩, h.symm⟩
          · rw [if_neg hv] at h; simp at h
      split at h
      · rename_i e he
        generalize hev : evalShape addrOk e.shape ver ws = ev at h
        match ev, h with
        | none, h => simp [readOps] at h
        | some (x, []), h =>
          injection h with h; subst h
          exfalso
          cases hsh : e.shape <;> rw [hsh] at hev <;> simp only [evalShape, word_bind, opt_bind, ret_iff] at hev <;>
            first
            | (obtain ⟨h, -⟩ := hev; cases h; done)
            | (obtain ⟨_, _, _, -, -, h, -⟩ := hev; cases h; done)
            | (obtain ⟨_, _, _, -, -, _, _, _, -, -, h, -⟩ := hev; cases h; done)
            | (obtain ⟨_, _, _, -, -, _, _, _, -, -, _, _, _, -, -, h, -⟩ := hev; cases h; done)
            | (obtain ⟨_, _, h⟩ := any_bind.1 hev; cases h; done)
            | (obtain ⟨-, h, -⟩ | ⟨_, _, _, -, -, h, -⟩ := hev <;> cases h; done)
            | (obtain ⟨_, _, _, -, -, ⟨-, h, -⟩ | ⟨_, _, _, -, -, h, -⟩⟩ := hev <;> cases h; done)
            | (obtain ⟨_, _, _, -, -, _, _, _, -, -, ⟨-, h, -⟩ | ⟨_, _, _, -, -, h, -⟩⟩ := hev <;> cases h; done)
            | (obtain ⟨-, h, -⟩ | ⟨_, _, _, -, -, _, _, _, -, -, h, -⟩ := hev <;> cases h; done)
        | some (x, _ :: _), h => simp [readOps] at h
      · simp at h

/-- A text written word by word, whose lines are read to one instruction each, is read to these. -/
theorem written_program (env : Env) {raws vs : List (List Bytes)} (h : WritesLines raws vs) (os : List Op)
    (hl : os.length = vs.length)
    (ho : ∀ (k ver : Nat) (ws : List Bytes) (o : Op), vs[k]? = some ws → os[k]? = some o → VersionAt (tokens (linesText raws)) k ver →
      opsOf env.addrOk ver ws = [o]) :
    ∃ r, process env (linesText raws) = some r ∧ r.listing = os ∧ NoSurplus r ∧
      VersionAt (tokens (linesText raws)) os.length r.version := by
  obtain ⟨-, hc, hw⟩ := written h
  obtain ⟨r, h1, h2, h3, h4, -⟩ := program_of_lines env (linesText raws) os (by rw [hl]; exact hc) (by
    intro k ver o hk hv
    have hlt : k < vs.length := by rw [← hl]; exact (List.getElem?_eq_some_iff.1 hk).1
    have hv' : vs[k]? = some vs[k] := List.getElem?_eq_getElem hlt
    show opsOf env.addrOk ver ((words (readTokens (linesText raws)).1 k).map Token.v) = [o]
    rw [hw k, hv']
    exact ho k ver _ o hv' hk hv)
  exact ⟨r, h1, h2, h3, h4⟩

theorem bare_writes {ws : List Bytes} (h : ∀ w ∈ ws, Bare w) : WritesAll ws ws := by
  induction ws with
  | nil => exact .nil
  | cons w ws ih => exact .cons _ _ _ _ (h w (by simp)).writes (ih fun x hx => h x (by simp [hx]))

theorem lineText_inj {a b : List Bytes} (ha : ∀ w ∈ a, Bare w) (hb : ∀ w ∈ b, Bare w) (h : lineText a = lineText b) : a = b := by
  have h1 := (written (.cons a a [] [] (bare_writes ha) .nil)).2.2 0
  have h2 := (written (.cons b b [] [] (bare_writes hb) .nil)).2.2 0
  have e : linesText [a] = linesText [b] := by simp [linesText, h]
  rw [e, h2] at h1
  simpa using h1.symm

/-- The lines of a printed program. -/
theorem printed_lines (os : List Op) (Q : Nat → Op → List Bytes → Prop)
    (h : ∀ (k : Nat) (o : Op), os[k]? = some o → ∃ ws, o.str = lineText ws ∧ (∀ w ∈ ws, Bare w) ∧ Q k o ws) :
    ∃ vs : List (List Bytes), WritesLines vs vs ∧ listingStr os = linesText vs ∧ vs.length = os.length ∧
      ∀ (k : Nat) (ws : List Bytes) (o : Op), vs[k]? = some ws → os[k]? = some o →
        o.str = lineText ws ∧ (∀ w ∈ ws, Bare w) ∧ Q k o ws := by
  induction os generalizing Q with
  | nil => exact ⟨[], .nil, rfl, rfl, by simp⟩
  | cons o os ih =>
    obtain ⟨vs, h1, h2, h3, h4⟩ := ih (fun k => Q (k + 1)) fun k o' ho' => h (k + 1) o' (by simpa using ho')
    obtain ⟨ws, h5, h6, h7⟩ := h 0 o rfl
    refine ⟨ws :: vs, .cons _ _ _ _ (bare_writes h6) h1, ?_, by simp [h3], ?_⟩
    · show o.str ++ [chLF] ++ listingStr os = lineText ws ++ [chLF] ++ linesText vs
      rw [h2, h5]
    · intro k ws' o' hk1 hk2
      cases k with
      | zero =>
        simp only [List.getElem?_cons_zero, Option.some.injEq] at hk1 hk2
        subst hk1 hk2
        exact ⟨h5, h6, h7⟩
      | succ k => exact h4 k ws' o' (by simpa using hk1) (by simpa using hk2)

/-- **C26** (partial: for the instructions of `Printable`; see `C26_false` for the others.)  The
printed listing of a program is read to the same listing, and to the same version. -/
theorem C26_partial (env : Env) (src : Bytes) (r : ProcessResult) (h : process env src = some r) (hs : NoSurplus r)
    (hver : ∀ k ver, VersionAt (tokens src) k ver → ver < 256)
    (hp : ∀ (k ver : Nat) (o : Op), r.listing[k]? = some o → VersionAt (tokens src) k ver → Printable ver o) :
    ∃ r', process env (listingStr r.listing) = some r' ∧ r'.listing = r.listing ∧ r'.version = r.version := by
  obtain ⟨qs, hr, he⟩ := process_eq env src
  rw [he] at h
  have hone := noSurplus_ops hr (noSurplus_lines h hs)
  obtain ⟨lds, l1, l2, l3, -, -, -, -, -, -, l8, -⟩ := assemble_eq h
  have hlen : r.listing.length = lineCount (tokens src) := by
    rw [l2, one_op_length hone, hr.length, linesOf_length]
  -- what each line was read to
  have hop : ∀ (k : Nat) (o : Op), r.listing[k]? = some o → ∃ ver, VersionAt (tokens src) k ver ∧
      opsOf env.addrOk ver ((words (tokens src) k).map Token.v) = [o] := by
    intro k o ho
    have hk : k < lineCount (tokens src) := by rw [← hlen]; exact (List.getElem?_eq_some_iff.1 ho).1
    obtain ⟨q, h1, h2⟩ := line_ops env.addrOk src qs hr k hk
    obtain ⟨op, h3⟩ := hone q (List.mem_of_getElem? h1)
    rw [l2, one_op hone k q h1, h3] at ho
    injection ho with ho
    subst ho
    exact ⟨_, (carry_version env.addrOk src qs hr k (Nat.le_of_lt hk) _).2 rfl, by rw [← h3, h2]⟩
  have hunique : ∀ k v v', k ≤ lineCount (tokens src) → VersionAt (tokens src) k v → VersionAt (tokens src) k v' → v = v' := by
    intro k v v' hk h1 h2
    rw [(carry_version env.addrOk src qs hr k hk _).1 h1, (carry_version env.addrOk src qs hr k hk _).1 h2]
  -- what each line is printed as
  have hre : ∀ (k : Nat) (o : Op), r.listing[k]? = some o → ∃ ver, VersionAt (tokens src) k ver ∧ Reread env.addrOk ver o := by
    intro k o ho
    obtain ⟨ver, h1, h2⟩ := hop k o ho
    refine ⟨ver, h1, reread env.addrOk ver o (valid_of_ops (words_ok src k) h2) (hp k ver o ho h1) ?_⟩
    rintro v rfl
    obtain ⟨n, hn, rfl⟩ := (setsVersion_ops h2).2 v rfl
    have h3 := hver (k + 1) n (.set k n hn)
    obtain ⟨_, _, _, _, h4, _⟩ := hn
    rw [Nat.mod_eq_of_lt h3]
    exact ⟨h4, h3⟩
  obtain ⟨vs, hwl, hstr, hvl, hvs⟩ := printed_lines r.listing
    (fun k o ws => ∃ ver, VersionAt (tokens src) k ver ∧ opsOf env.addrOk ver ws = [o]) fun k o ho => by
      obtain ⟨ver, h1, ws, h2, h3, h4⟩ := hre k o ho
      exact ⟨ws, h2, h3, ver, h1, h4⟩
  obtain ⟨-, hc, hw⟩ := written hwl
  -- versions are the same
  have hsame : ∀ k, k ≤ r.listing.length → ∀ v, VersionAt (tokens (linesText vs)) k v → VersionAt (tokens src) k v := by
    intro k
    induction k with
    | zero => intro _ v hv; cases hv; exact .first
    | succ k ih =>
      intro hk v hv
      have hgo : r.listing[k]? = some r.listing[k] := List.getElem?_eq_getElem hk
      have hgv : vs[k]? = some vs[k] := List.getElem?_eq_getElem (by omega)
      obtain ⟨hs1, hb1, ver, hv1, ho1⟩ := hvs k _ _ hgv hgo
      obtain ⟨ver2, hv2, ho2⟩ := hop k _ hgo
      have hwk : (words (tokens (linesText vs)) k).map Token.v = vs[k] := by
        show (words (readTokens (linesText vs)).1 k).map Token.v = _
        rw [hw k, hgv]; rfl
      cases hv with
      | set _ _ hset =>
        rw [hwk] at hset
        have hpr := (setsVersion_ops ho1).1 v hset
        obtain ⟨n, hn, hmod⟩ := (setsVersion_ops ho2).2 _ hpr
        have h3 := hver (k + 1) n (.set k n hn)
        rw [hpr, Op.str] at hs1
        have hws : vs[k] = [b!"#pragma", b!"version", formatUint (v % 256)] := by
          refine lineText_inj hb1 ?_ (hs1.symm.trans (by simp [lineText, chSpace]))
          intro w hw
          simp only [List.mem_cons, List.not_mem_nil, or_false] at hw
          rcases hw with rfl | rfl | rfl
          · decide
          · decide
          · exact bare_uint _
        rw [hws] at hset
        obtain ⟨s, rest, he1, he2, he3, he4⟩ := hset
        injection he1 with _ he1
        injection he1 with _ he1
        injection he1 with he1 _
        have hr1 := (C11_int_literal s v).2 ⟨he2, he4⟩
        rw [← he1, (C11_print_read (v % 256) (by omega)).2] at hr1
        injection hr1 with hr1
        have : v = n := by omega
        subst this
        exact .set k v hn
      | keep _ _ hv hn =>
        rw [hwk] at hn
        refine .keep k v (ih (by omega) v hv) ?_
        intro n hset
        have hpr := (setsVersion_ops ho2).1 n hset
        obtain ⟨m, hm, -⟩ := (setsVersion_ops ho1).2 _ hpr
        exact hn m hm
  obtain ⟨r', h1, h2, -, h4⟩ := written_program env hwl r.listing hvl.symm (by
    intro k ver ws o hk1 hk2 hv
    have hk : k < r.listing.length := (List.getElem?_eq_some_iff.1 hk2).1
    obtain ⟨-, -, ver', hv', ho⟩ := hvs k ws o hk1 hk2
    rw [hunique k ver ver' (by rw [← hlen]; exact Nat.le_of_lt hk) (hsame k (Nat.le_of_lt hk) ver hv) hv']
    exact ho)
  rw [← hstr] at h1
  refine ⟨r', h1, h2, ?_⟩
  have h5 : VersionAt (tokens src) r.listing.length r.version := by
    rw [l8, last_carry, hlen, hr.length, linesOf_length]
    exact (carry_version env.addrOk _ qs hr _ (Nat.le_refl _) _).2 rfl
  exact hunique _ _ _ (by rw [hlen]; exact Nat.le_refl _) (hsame _ (Nat.le_refl _) _ h4) h5

/-- The hypotheses of `C26_partial` hold of a program of several lines. -/
example : ∃ r, process sampleEnv b!"#pragma version 6\nmain:\n byte \"a b\" // c\ntxn Logs 0\nb main" = some r ∧ NoSurplus r ∧
    (∀ k ver, VersionAt (tokens b!"#pragma version 6\nmain:\n byte \"a b\" // c\ntxn Logs 0\nb main") k ver → ver < 256) ∧
    ∀ (k ver : Nat) (o : Op), r.listing[k]? = some o →
      VersionAt (tokens b!"#pragma version 6\nmain:\n byte \"a b\" // c\ntxn Logs 0\nb main") k ver → Printable ver o := by
  have h1 : (process sampleEnv b!"#pragma version 6\nmain:\n byte \"a b\" // c\ntxn Logs 0\nb main").isSome = true := by decide +kernel
  have h2 : (((process sampleEnv b!"#pragma version 6\nmain:\n byte \"a b\" // c\ntxn Logs 0\nb main").map (·.diagnostics)).getD []).all
      (fun d => match d.kind with | .parse .tooManyValues => false | _ => true) = true := by
    decide +kernel
  have h3 : ((process sampleEnv b!"#pragma version 6\nmain:\n byte \"a b\" // c\ntxn Logs 0\nb main").map (·.listing)).getD [] =
      [.pragma 6, .label b!"main", .byte b!"a b", .fieldIdx .txna 58 0, .branch .b b!"main"] := by decide +kernel
  have hw : ∀ k, k < 5 → (words (tokens b!"#pragma version 6\nmain:\n byte \"a b\" // c\ntxn Logs 0\nb main") k).map Token.v =
      [[b!"#pragma", b!"version", b!"6"], [b!"main:"], [b!"byte", b!"\"a b\""], [b!"txn", b!"Logs", b!"0"], [b!"b", b!"main"]][k]?.getD [] := by
    decide +kernel
  have hc : lineCount (tokens b!"#pragma version 6\nmain:\n byte \"a b\" // c\ntxn Logs 0\nb main") = 5 := by decide +kernel
  obtain ⟨r, hr⟩ := Option.isSome_iff_exists.1 h1
  rw [hr] at h2 h3
  replace h2 := List.all_eq_true.1 (show r.diagnostics.all _ = true from h2)
  replace h3 : r.listing = _ := h3
  refine ⟨r, hr, ?_, ?_, ?_⟩
  · intro d hd hk
    have := h2 d hd
    rw [hk] at this
    cases this
  · intro k ver h
    clear h1 h2 h3 hr
    induction h with
    | first => decide
    | set k n h =>
      by_cases hk : k < 5
      · rw [hw k hk] at h
        obtain ⟨s, rest, he, hl, h4, h5⟩ := h
        match k, hk with
        | 0, _ =>
          simp only [List.getElem?_cons_zero, Option.getD_some] at he
          injection he with _ he
          injection he with _ he
          injection he with he _
          subst he
          have := (C11_int_literal b!"6" n).2 ⟨hl, h5⟩
          have h6 : readInt b!"6" = some 6 := by decide
          rw [h6] at this
          injection this with this
          omega
        | 1, _ => simp at he
        | 2, _ => simp at he
        | 3, _ => simp at he
        | 4, _ => simp at he
      · exfalso
        obtain ⟨s, rest, he, -⟩ := h
        have := words_lt (src := b!"#pragma version 6\nmain:\n byte \"a b\" // c\ntxn Logs 0\nb main") (k := k) (by
          intro h0
          rw [show words (tokens _) k = [] from h0] at he
          simp at he)
        rw [hc] at this
        exact hk this
    | keep k v _ _ ih => exact ih
  · intro k ver o ho _
    rw [h3] at ho
    have hk := (List.getElem?_eq_some_iff.1 ho).1
    match k, hk with
    | 0, _ => cases ho; trivial
    | 1, _ => cases ho; trivial
    | 2, _ => cases ho; exact ⟨by decide, fun b t h => by simp at h⟩
    | 3, _ => cases ho; exact .inr ⟨_, rfl, rfl⟩
    | 4, _ => cases ho; show Unquoted _; unfold Unquoted; decide

/-- **C26 is false of the code**: printed, these programs are read as something else.  A byte
constant whose base64 text begins with two slashes becomes a comment, the empty one has no operand
left, `replace2` and `pushints` are printed under other names, `gtxnas` with its operands swapped,
`method` with its quotes twice, and a field given by number with a name that its version does not
have. -/
theorem C26_false :
    (∀ src ∈ [b!"byte 0xffff", b!"byte 0x", b!"replace2 1", b!"pushints 1 2", b!"gtxnas 1 Logs", b!"method \"a\"", b!"txn 61"],
      ((process sampleEnv src).map fun r => r.diagnostics.all fun d => match d.kind with | .parse .tooManyValues => false | _ => true) = some true) ∧
    ∀ src ∈ [b!"byte 0xffff", b!"byte 0x", b!"replace2 1", b!"pushints 1 2", b!"gtxnas 1 Logs", b!"method \"a\"", b!"txn 61"],
      ((process sampleEnv src).bind fun r => process sampleEnv (listingStr r.listing)).map (·.listing) ≠
        (process sampleEnv src).map (·.listing) := by
  decide +kernel

end Teal.Props
