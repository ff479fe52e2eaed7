import Verif.Lemmas.ProcessLine
import Verif.Lemmas.Linter

/-! Lemmas about `process` as a whole. -/

namespace Teal
open Spec

/-- The rounds of the loop over the lines. -/
inductive Run (addrOk : Bytes → Bool) : Carry → List (List Token) → List LineOut → Prop
  | nil (s : Carry) : Run addrOk s [] []
  | cons (s : Carry) (line : List Token) (o : LineOut) (ls : List (List Token)) (os : List LineOut)
      (h : processLine addrOk s line = some o) (hf : LineFacts s line o)
      (hr : Run addrOk o.next ls os) : Run addrOk s (line :: ls) (o :: os)

theorem processLines_run (addrOk : Bytes → Bool) (ls : List (List Token))
    (h : ∀ line ∈ ls, ∃ k, LineOk k line) : ∀ s,
    ∃ os, processLines addrOk s ls = some os ∧ Run addrOk s ls os := by
  induction ls with
  | nil => exact fun s => ⟨[], rfl, .nil s⟩
  | cons line ls ih =>
    intro s
    obtain ⟨k, hk⟩ := h line (by simp)
    obtain ⟨o, ho, hf⟩ := processLine_facts addrOk s k line hk
    obtain ⟨os, hos, hr⟩ := ih (fun l hl => h l (by simp [hl])) o.next
    exact ⟨o :: os, by rw [processLines, ho]; simp only; rw [hos], .cons s line o ls os ho hf hr⟩

/-- The lines of a text. -/
def linesOf (src : Bytes) : List (List Token) := sourceLines (readTokens src).1

theorem linesOf_ok (src : Bytes) : ∀ line ∈ linesOf src, ∃ k, LineOk k line := by
  intro line hl
  obtain ⟨k, hk⟩ := List.mem_iff_getElem?.1 hl
  obtain ⟨h1, h2⟩ := sourceLines_spec _ (readTokens_seq src)
  have hlt : k < lineCount (readTokens src).1 := by
    rw [← h1]
    exact (List.getElem?_eq_some_iff.1 hk).1
  have := h2 k hlt
  unfold linesOf at hk
  rw [hk] at this
  exact ⟨k, Option.some.inj this ▸ lineOk (readTokens_seq src) k⟩

/-- `process` runs the loop to its end. -/
theorem process_eq (env : Env) (src : Bytes) : ∃ os, Run env.addrOk {} (linesOf src) os ∧
    process env src = assemble env (readTokens src).2 (linesOf src) os := by
  obtain ⟨os, h1, h2⟩ := processLines_run env.addrOk (linesOf src) (linesOf_ok src) {}
  refine ⟨os, h2, ?_⟩
  unfold process
  show (match processLines env.addrOk {} (linesOf src) with
    | none => none
    | some os => assemble env (readTokens src).2 (linesOf src) os) = _
  rw [h1]

theorem Run.length {addrOk : Bytes → Bool} {s : Carry} {ls : List (List Token)} {os : List LineOut}
    (h : Run addrOk s ls os) : os.length = ls.length := by
  induction h with
  | nil => rfl
  | cons s line o ls os h hf hr ih => simp [ih]

theorem Run.flatMap {addrOk : Bytes → Bool} {s : Carry} {ls : List (List Token)} {os : List LineOut}
    {α : Type} (f : LineOut → List α) (g : List Token → List α)
    (hfg : ∀ s line o, LineFacts s line o → f o = g line)
    (h : Run addrOk s ls os) : os.flatMap f = ls.flatMap g := by
  induction h with
  | nil => rfl
  | cons s line o ls os h hf hr ih => rw [List.flatMap_cons, List.flatMap_cons, ih, hfg s line o hf]

theorem Run.filterMap {addrOk : Bytes → Bool} {s : Carry} {ls : List (List Token)} {os : List LineOut}
    {α : Type} (f : LineOut → Option α) (g : List Token → Option α)
    (hfg : ∀ s line o, LineFacts s line o → f o = g line)
    (h : Run addrOk s ls os) : os.filterMap f = ls.filterMap g := by
  induction h with
  | nil => rfl
  | cons s line o ls os h hf hr ih => rw [List.filterMap_cons, List.filterMap_cons, ih, hfg s line o hf]

theorem Run.mem {addrOk : Bytes → Bool} {s : Carry} {ls : List (List Token)} {os : List LineOut}
    (h : Run addrOk s ls os) : ∀ o ∈ os, ∃ s' line, line ∈ ls ∧ LineFacts s' line o := by
  induction h with
  | nil => simp
  | cons s line o ls os h hf hr ih =>
    intro x hx
    rcases List.mem_cons.1 hx with rfl | hx
    · exact ⟨s, line, by simp, hf⟩
    · obtain ⟨s', l', h1, h2⟩ := ih x hx
      exact ⟨s', l', by simp [h1], h2⟩

/-- The carry before line `k`. -/
def carryAt (s : Carry) (os : List LineOut) (k : Nat) : Carry :=
  match k with
  | 0 => s
  | k + 1 => (os[k]?.map (·.next)).getD s

theorem Run.get {addrOk : Bytes → Bool} {s : Carry} {ls : List (List Token)} {os : List LineOut}
    (h : Run addrOk s ls os) (k : Nat) (line : List Token) (hl : ls[k]? = some line) :
    ∃ o, os[k]? = some o ∧ processLine addrOk (carryAt s os k) line = some o ∧
      LineFacts (carryAt s os k) line o := by
  induction h generalizing k with
  | nil => simp at hl
  | cons s l0 o ls os h hf hr ih =>
    cases k with
    | zero =>
      simp only [List.getElem?_cons_zero, Option.some.injEq] at hl
      subst hl
      exact ⟨o, rfl, h, hf⟩
    | succ k =>
      rw [List.getElem?_cons_succ] at hl
      obtain ⟨o', h1, h2, h3⟩ := ih k hl
      have hc : carryAt s (o :: os) (k + 1) = carryAt o.next os k := by
        cases k with
        | zero => rfl
        | succ k =>
          show ((o :: os)[k + 1]?.map (·.next)).getD s = (os[k]?.map (·.next)).getD o.next
          have hk : k < os.length := by
            have := (List.getElem?_eq_some_iff.1 h1).1; omega
          rw [List.getElem?_cons_succ, List.getElem?_eq_getElem hk]; rfl
      rw [hc]
      exact ⟨o', by rw [List.getElem?_cons_succ]; exact h1, h2, h3⟩

theorem linesOf_get (src : Bytes) (k : Nat) (line : List Token) :
    (linesOf src)[k]? = some line ↔
      k < lineCount (readTokens src).1 ∧ line = lineTokens (readTokens src).1 k := by
  obtain ⟨h1, h2⟩ := sourceLines_spec _ (readTokens_seq src)
  constructor
  · intro h
    have hlt : k < lineCount (readTokens src).1 := by
      rw [← h1]
      exact (List.getElem?_eq_some_iff.1 h).1
    have := h2 k hlt
    unfold linesOf at h
    rw [h] at this
    exact ⟨hlt, Option.some.inj this⟩
  · rintro ⟨h, rfl⟩
    exact h2 k h

theorem linesOf_eq (src : Bytes) : linesOf src =
    (List.range (lineCount (readTokens src).1)).map (lineTokens (readTokens src).1) := by
  apply List.ext_getElem?
  intro k
  by_cases h : k < lineCount (readTokens src).1
  · rw [(linesOf_get src k _).2 ⟨h, rfl⟩]
    simp [h]
  · rw [List.getElem?_eq_none, List.getElem?_eq_none]
    · simp; omega
    · have := (sourceLines_spec _ (readTokens_seq src)).1
      unfold linesOf; omega

/-! ## Linter diagnostics -/

theorem lintDiags_some (lts : List (List Token)) (es : List LintErr) :
    (∃ ds, lintDiags lts es = some ds) ↔ ∀ e ∈ es, e.l < lts.length := by
  induction es with
  | nil => simp [lintDiags]
  | cons e es ih =>
    rw [lintDiags]
    by_cases h : e.l < lts.length
    · rw [List.getElem?_eq_getElem h]
      simp only [List.mem_cons, forall_eq_or_imp, h, true_and, ← ih]
      constructor
      · rintro ⟨ds, hds⟩
        cases hx : lintDiags lts es with
        | none => rw [hx] at hds; cases hds
        | some x => exact ⟨x, rfl⟩
      · rintro ⟨x, hx⟩
        exact ⟨_, by rw [hx]⟩
    · rw [List.getElem?_eq_none (by omega)]
      simp [h]

theorem lintDiags_eq (lts : List (List Token)) (es : List LintErr) (ds : List Diag)
    (h : lintDiags lts es = some ds) : ds = es.map fun e =>
      ⟨.lint e.rule, e.l, lineBegin ((lts[e.l]?).getD []), lineEnd ((lts[e.l]?).getD [])⟩ := by
  induction es generalizing ds with
  | nil => simp only [lintDiags, Option.some.injEq] at h; exact h ▸ rfl
  | cons e es ih =>
    rw [lintDiags] at h
    cases hl : lts[e.l]? with
    | none => rw [hl] at h; cases h
    | some ln =>
      rw [hl] at h
      cases hx : lintDiags lts es with
      | none => rw [hx] at h; cases h
      | some x =>
        rw [hx] at h
        simp only [Option.some.injEq] at h
        rw [← h, List.map_cons, ih x hx, hl]; rfl

/-- Every lint error is at an instruction. -/
theorem lintErrs_lt (o : MapOrder) (l : List Op) (e : LintErr) (h : e ∈ lintErrs o l) :
    e.l < l.length := by
  have key : ∀ p, l[e.l]? = some p → e.l < l.length := fun p hp => (List.getElem?_eq_some_iff.1 hp).1
  rw [mem_lintErrs, mem_lintDuplicate, mem_lintUnused, mem_lintUnreachable, mem_lintBJustBefore,
    mem_lintMissing, mem_lintLoops, mem_lintPragma] at h
  rcases h with ⟨_, n, k, h, _⟩ | ⟨_, n, h, _⟩ | ⟨_, o, h, _⟩ | ⟨_, n, j, h, _⟩ | ⟨_, p, n, h, _⟩ |
    ⟨_, n, j, h, _⟩ | ⟨_, v, h, _⟩ <;> exact key _ h

/-! ## The version and mode in force -/

theorem pragmaVersion?_iff (line : List Token) (n : Nat) :
    pragmaVersion? line = some n ↔ ∃ p w s rest, line = p :: w :: s :: rest ∧ w.v = b!"version" ∧
      IntLiteral s.v n ∧ 1 ≤ n ∧ n < 2 ^ 64 := by
  constructor
  · intro h
    rcases line with _ | ⟨p, _ | ⟨w, _ | ⟨s, rest⟩⟩⟩
    · cases h
    · cases h
    · cases h
    · rw [pragmaVersion?] at h
      split at h
      · rename_i hw
        cases hr : readInt s.v with
        | none => rw [hr] at h; cases h
        | some v =>
          rw [hr] at h
          simp only at h
          split at h
          · cases h
          · injection h with h
            subst h
            have := (parseUint0_iff 64 (Nat.le_refl _) s.v v).1 hr
            exact ⟨p, w, s, rest, rfl, hw, this.1, by omega, this.2⟩
      · cases h
  · rintro ⟨p, w, s, rest, rfl, hw, h1, h2, h3⟩
    have : readInt s.v = some n := (parseUint0_iff 64 (Nat.le_refl _) s.v n).2 ⟨h1, h3⟩
    rw [pragmaVersion?, if_pos hw, this]
    simp only
    rw [if_neg (by omega)]

theorem lineTokens_head (ts : List Token) (k : Nat) (t : Token) (rest : List Token)
    (h : lineTokens ts k = t :: rest) (ht : t.t = .value) : words ts k = t :: rest := by
  unfold lineTokens at h
  by_cases hw : words ts k = []
  · rw [if_pos hw] at h
    have := (mem_comments.1 (h ▸ List.mem_cons_self : t ∈ comments ts k)).2.2
    rw [ht] at this; cases this
  · rw [if_neg hw] at h; exact h

theorem lineTokens_words (ts : List Token) (k : Nat) (t : Token) (rest : List Token)
    (h : words ts k = t :: rest) : lineTokens ts k = t :: rest ∧ t.t = .value ∧ t.l = k := by
  have := mem_words.1 (h ▸ List.mem_cons_self : t ∈ words ts k)
  unfold lineTokens
  rw [h, if_neg (by simp)]
  exact ⟨rfl, this.2.2, this.2.1⟩

theorem lineVersion?_iff (ts : List Token) (k n : Nat) :
    lineVersion? (lineTokens ts k) = some n ↔ SetsVersion ((words ts k).map Token.v) n := by
  constructor
  · intro h
    cases hl : lineTokens ts k with
    | nil => rw [hl] at h; cases h
    | cons t rest =>
      rw [hl, lineVersion?] at h
      split at h
      · rename_i hc
        obtain ⟨p, w, s, more, h1, h2, h3, h4, h5⟩ := (pragmaVersion?_iff _ _).1 h
        rw [lineTokens_head ts k t rest hl hc.1, h1]
        injection h1 with h1 _
        refine ⟨s.v, more.map Token.v, ?_, h3, h4, h5⟩
        simp only [List.map_cons, h2, ← h1, hc.2]
      · cases h
  · rintro ⟨s, rest, h1, h2, h3, h4⟩
    cases hw : words ts k with
    | nil => rw [hw] at h1; cases h1
    | cons p ws =>
      rw [hw] at h1
      rcases ws with _ | ⟨w, _ | ⟨x, more⟩⟩
      · simp at h1
      · simp at h1
      · simp only [List.map_cons, List.cons.injEq] at h1
        obtain ⟨e1, e2, e3, e4⟩ := h1
        obtain ⟨hl, hv, -⟩ := lineTokens_words ts k p _ hw
        rw [hl, lineVersion?, if_pos ⟨hv, e1⟩, pragmaVersion?_iff]
        exact ⟨p, w, x, more, rfl, e2, e3 ▸ h2, h3, h4⟩

theorem carry_version (addrOk : Bytes → Bool) (src : Bytes) (os : List LineOut)
    (h : Run addrOk {} (linesOf src) os) : ∀ k, k ≤ lineCount (readTokens src).1 → ∀ v,
    VersionAt (readTokens src).1 k v ↔ v = (carryAt {} os k).version := by
  intro k
  induction k with
  | zero =>
    intro _ v
    constructor
    · intro h; cases h; rfl
    · rintro rfl; exact .first
  | succ k ih =>
    intro hk v
    obtain ⟨o, ho, -, hf⟩ := h.get k _ ((linesOf_get src k _).2 ⟨by omega, rfl⟩)
    have hc : carryAt {} os (k + 1) = o.next := by
      show (os[k]?.map (·.next)).getD {} = _
      rw [ho]; rfl
    rw [hc, hf.version]
    have ih := ih (by omega)
    cases hl : lineVersion? (lineTokens (readTokens src).1 k) with
    | none =>
      have hno : ∀ n, ¬ SetsVersion ((words (readTokens src).1 k).map Token.v) n := by
        intro n hn
        rw [(lineVersion?_iff _ _ _).2 hn] at hl; cases hl
      constructor
      · intro h
        cases h with
        | set k n h => exact absurd h (hno _)
        | keep k v h hn => exact (ih v).1 h
      · intro h
        exact .keep k v ((ih v).2 h) hno
    | some n =>
      have hs := (lineVersion?_iff _ _ _).1 hl
      constructor
      · intro h
        cases h with
        | set k m h =>
          rw [(lineVersion?_iff _ _ _).2 h] at hl
          exact Option.some.inj hl
        | keep k v h hn => exact absurd hs (hn n)
      · rintro rfl
        all_goals exact .set k _ hs

theorem lineMode_iff (ts : List Token) {l : Nat} (hs : Seq l ts) (k : Nat) :
    lineMode (lineTokens ts k) = true ↔ words ts k = [] ∧
      ∃ c ∈ comments ts k, trimSpace c.v = b!"#pragma mode logicsig" := by
  unfold lineTokens
  by_cases hw : words ts k = []
  · rw [if_pos hw]
    have := (onLine_split hs k).2
    cases hc : comments ts k with
    | nil => simp [lineMode]
    | cons c cs =>
      have : cs = [] := by
        rw [hc] at this
        cases cs with | nil => rfl | cons => simp at this
      subst this
      have := (mem_comments.1 (hc ▸ List.mem_cons_self : c ∈ comments ts k)).2.2
      simp [lineMode, this, hw]
  · rw [if_neg hw]
    simp only [hw, false_and, iff_false]
    cases hc : words ts k with
    | nil => exact absurd hc hw
    | cons c cs =>
      have := (mem_words.1 (hc ▸ List.mem_cons_self : c ∈ words ts k)).2.2
      cases cs <;> simp [lineMode, this]


theorem carry_mode (addrOk : Bytes → Bool) (src : Bytes) (os : List LineOut)
    (h : Run addrOk {} (linesOf src) os) : ∀ k, k ≤ lineCount (readTokens src).1 →
    ((carryAt {} os k).mode = .sig ↔ SigAt (readTokens src).1 k) := by
  intro k
  induction k with
  | zero => intro _; constructor
            · intro h; cases h
            · rintro ⟨j, hj, _⟩; omega
  | succ k ih =>
    intro hk
    obtain ⟨o, ho, -, hf⟩ := h.get k _ ((linesOf_get src k _).2 ⟨by omega, rfl⟩)
    have hc : carryAt {} os (k + 1) = o.next := by
      show (os[k]?.map (·.next)).getD {} = _
      rw [ho]; rfl
    rw [hc, hf.mode]
    have hm := lineMode_iff _ (readTokens_seq src) k
    by_cases hl : lineMode (lineTokens (readTokens src).1 k) = true
    · rw [if_pos hl]
      exact ⟨fun _ => ⟨k, by omega, hm.1 hl⟩, fun _ => rfl⟩
    · rw [if_neg hl, ih (by omega)]
      constructor
      · rintro ⟨j, hj, h⟩; exact ⟨j, by omega, h⟩
      · rintro ⟨j, hj, h⟩
        rcases Nat.lt_or_eq_of_le (Nat.lt_succ_iff.1 hj) with h' | rfl
        · exact ⟨j, h', h⟩
        · exact absurd (hm.2 h) hl

/-! ## Lines without surplus words -/

theorem assemble_eq {env : Env} {errs : List LexError} {lts : List (List Token)} {os : List LineOut}
    {r : ProcessResult} (h : assemble env errs lts os = some r) :
    ∃ lds, lintDiags lts (lintErrs env.maps r.listing) = some lds ∧
      r.listing = os.flatMap (·.ctx.ops) ∧
      r.diagnostics = errs.map lexDiag ++ os.flatMap (·.ctx.diag) ++ lds ∧
      r.symbolRefs = os.flatMap (·.ctx.refs) ∧
      r.symbols.map (fun s => (s.name, s.l, s.b, s.e)) =
        (os.filterMap (·.sym)).map (fun s => (s.name, s.l, s.b, s.e)) ∧
      r.missRefs = r.symbolRefs.filter (fun x => !(r.symbols.any fun s => s.name == x.v)) ∧
      r.lines = lts ∧ r.versions = os.filterMap (·.ver) ∧ r.ops = os.filterMap (·.opTok) ∧
      r.version = ((os.getLast?.map LineOut.next).getD ({} : Carry)).version ∧
      r.mode = ((os.getLast?.map LineOut.next).getD ({} : Carry)).mode := by
  unfold assemble at h
  simp only [Option.map_eq_some_iff] at h
  obtain ⟨lds, h1, rfl⟩ := h
  refine ⟨lds, h1, rfl, rfl, rfl, ?_, ?_, rfl, rfl, rfl, rfl, rfl⟩
  · simp only [List.map_map]; rfl
  · simp only [List.any_map]; rfl

theorem one_op {os : List LineOut} (h : ∀ o ∈ os, ∃ op, o.ctx.ops = [op]) (k : Nat) (o : LineOut)
    (ho : os[k]? = some o) : (os.flatMap (·.ctx.ops))[k]? = o.ctx.ops.head? := by
  induction os generalizing k with
  | nil => simp at ho
  | cons a os ih =>
    obtain ⟨op, hop⟩ := h a (by simp)
    rw [List.flatMap_cons, hop]
    cases k with
    | zero =>
      simp only [List.getElem?_cons_zero, Option.some.injEq] at ho
      subst ho
      simp [hop]
    | succ k =>
      rw [List.getElem?_cons_succ] at ho
      simpa using ih (fun x hx => h x (by simp [hx])) k ho

theorem one_op_length {os : List LineOut} (h : ∀ o ∈ os, ∃ op, o.ctx.ops = [op]) :
    (os.flatMap (·.ctx.ops)).length = os.length := by
  induction os with
  | nil => rfl
  | cons a os ih =>
    obtain ⟨op, hop⟩ := h a (by simp)
    rw [List.flatMap_cons, hop, List.length_append, ih (fun x hx => h x (by simp [hx]))]
    simp; omega

theorem linesOf_length (src : Bytes) : (linesOf src).length = lineCount (readTokens src).1 :=
  (sourceLines_spec _ (readTokens_seq src)).1

/-- What `Process` returns, line by line. -/
theorem process_run {env : Env} {src : Bytes} {r : ProcessResult} (h : process env src = some r) :
    ∃ os, Run env.addrOk {} (linesOf src) os ∧
      assemble env (readTokens src).2 (linesOf src) os = some r := by
  obtain ⟨os, h1, h2⟩ := process_eq env src
  exact ⟨os, h1, by rw [← h2]; exact h⟩

theorem noSurplus_ops {addrOk : Bytes → Bool} {s : Carry} {ls : List (List Token)} {os : List LineOut}
    (hr : Run addrOk s ls os) (h : ∀ d ∈ os.flatMap (·.ctx.diag), d.kind ≠ .parse .tooManyValues) :
    ∀ o ∈ os, ∃ op, o.ctx.ops = [op] := by
  intro o ho
  obtain ⟨s', line, -, hf⟩ := hr.mem o ho
  rcases hf.ops with ⟨op, h1, _⟩ | ⟨op, t, h1, h2, h3⟩
  · exact ⟨op, h1⟩
  · exact absurd rfl (h _ (List.mem_flatMap.2 ⟨o, ho, h3⟩))

/-- Without surplus words `Process` returns a result. -/
theorem process_some_of_noSurplus (env : Env) (src : Bytes) (os : List LineOut)
    (hr : Run env.addrOk {} (linesOf src) os)
    (h : ∀ d ∈ os.flatMap (·.ctx.diag), d.kind ≠ .parse .tooManyValues) :
    ∃ r, assemble env (readTokens src).2 (linesOf src) os = some r := by
  have hlen := one_op_length (noSurplus_ops hr h)
  unfold assemble
  obtain ⟨ds, hds⟩ := (lintDiags_some (linesOf src) (lintErrs env.maps (os.flatMap (·.ctx.ops)))).2 (by
    intro e he
    have := lintErrs_lt _ _ e he
    rw [hlen, hr.length] at this
    exact this)
  simp only [hds]
  exact ⟨_, rfl⟩

/-! ## Lines exist -/

theorem breaks_lf_cons (t : Bytes) : breaks (chLF :: t) = breaks t + 1 := by
  cases t with
  | nil => simp [breaks]
  | cons d t => simp [breaks, show ¬ (chLF = chCR) by decide]

theorem breaks_cons_ge (c : UInt8) (t : Bytes) : breaks t ≤ breaks (c :: t) := by
  cases t with
  | nil => simp [breaks]
  | cons d t =>
    by_cases h : c = chCR ∧ d = chLF
    · rw [h.1, h.2, breaks_lf_cons]
      simp [breaks]
    · rw [breaks, if_neg h]
      split <;> omega

theorem breaks_append_ge (a b : Bytes) : breaks b ≤ breaks (a ++ b) := by
  induction a with
  | nil => exact Nat.le_refl _
  | cons c a ih => exact Nat.le_trans ih (breaks_cons_ge c _)

theorem breaks_eol_append (raw rest : Bytes)
    (hraw : raw = [chLF] ∨ raw = [chCR, chLF] ∨ (raw = [chCR] ∧ rest.head? ≠ some chLF)) :
    breaks (raw ++ rest) = breaks rest + 1 := by
  rcases hraw with rfl | rfl | ⟨rfl, h⟩
  · exact breaks_lf_cons rest
  · simp [breaks]
  · cases rest with
    | nil => simp [breaks]
    | cons d t =>
      have : d ≠ chLF := fun hd => h (by rw [hd]; rfl)
      simp [breaks, this]

theorem lexes_lines {l c : Nat} {src : Bytes} {ts : List Token} {err : Option (Nat × Nat)}
    (h : Lexes l c src ts err) :
    (∀ t ∈ ts, l ≤ t.l ∧ t.l ≤ l + breaks src ∧ (t.l = l → c ≤ t.b) ∧ t.b ≤ t.e) ∧
    (∀ p ∈ err, p.1 ≤ l + breaks src) ∧
    ts.Pairwise (fun a b => a.l = b.l → a.e ≤ b.b) := by
  induction h with
  | done => simp
  | blank l c x rest ts err hx h ih =>
    have := breaks_cons_ge x rest
    refine ⟨fun t ht => ?_, fun p hp => ?_, ih.2.2⟩
    · obtain ⟨h1, h2, h3, h4⟩ := ih.1 t ht
      exact ⟨h1, by omega, fun e => by have := h3 e; omega, h4⟩
    · have := ih.2.1 p hp; omega
  | eol l c raw rest ts err hraw h ih =>
    have := breaks_eol_append raw rest hraw
    refine ⟨fun t ht => ?_, fun p hp => ?_, ?_⟩
    · rcases List.mem_cons.1 ht with rfl | ht
      · exact ⟨Nat.le_refl _, by simp, fun _ => Nat.le_refl _, by simp⟩
      · obtain ⟨h1, h2, h3, h4⟩ := ih.1 t ht
        exact ⟨by omega, by omega, fun e => by omega, h4⟩
    · have := ih.2.1 p hp; omega
    · rw [List.pairwise_cons]
      refine ⟨fun t ht e => ?_, ih.2.2⟩
      have := (ih.1 t ht).1
      simp only at e; omega
  | comment l c v rest ts err hv hrest h ih =>
    have := breaks_append_ge (chSlash :: chSlash :: v) rest
    simp only [List.cons_append] at this
    refine ⟨fun t ht => ?_, fun p hp => ?_, ?_⟩
    · rcases List.mem_cons.1 ht with rfl | ht
      · exact ⟨Nat.le_refl _, by simp, fun _ => Nat.le_refl _, by simp⟩
      · obtain ⟨h1, h2, h3, h4⟩ := ih.1 t ht
        exact ⟨by omega, by omega, fun e => by have := h3 e; omega, h4⟩
    · have := ih.2.1 p hp; omega
    · rw [List.pairwise_cons]
      exact ⟨fun t ht e => (ih.1 t ht).2.2.1 e.symm, ih.2.2⟩
  | bare l c v rest ts err hne hq hsl hv hrest h ih =>
    have := breaks_append_ge v rest
    refine ⟨fun t ht => ?_, fun p hp => ?_, ?_⟩
    · rcases List.mem_cons.1 ht with rfl | ht
      · exact ⟨Nat.le_refl _, by simp, fun _ => Nat.le_refl _, by simp⟩
      · obtain ⟨h1, h2, h3, h4⟩ := ih.1 t ht
        exact ⟨by omega, by omega, fun e => by have := h3 e; omega, h4⟩
    · have := ih.2.1 p hp; omega
    · rw [List.pairwise_cons]
      exact ⟨fun t ht e => (ih.1 t ht).2.2.1 e.symm, ih.2.2⟩
  | quoted l c body rest ts err hbody hlast h ih =>
    have := breaks_append_ge (chQuote :: (body ++ [chQuote])) rest
    simp only [List.cons_append, List.append_assoc, List.nil_append] at this
    refine ⟨fun t ht => ?_, fun p hp => ?_, ?_⟩
    · rcases List.mem_cons.1 ht with rfl | ht
      · exact ⟨Nat.le_refl _, by simp, fun _ => Nat.le_refl _, by simp⟩
      · obtain ⟨h1, h2, h3, h4⟩ := ih.1 t ht
        exact ⟨by omega, by omega, fun e => by have := h3 e; omega, h4⟩
    · have := ih.2.1 p hp; omega
    · rw [List.pairwise_cons]
      exact ⟨fun t ht e => (ih.1 t ht).2.2.1 e.symm, ih.2.2⟩
  | unterminated l c rest h => simp

theorem readTokens_lines (src : Bytes) :
    (∀ t ∈ (readTokens src).1, t.l ≤ breaks src ∧ t.b ≤ t.e) ∧
    (∀ e ∈ (readTokens src).2, e.l ≤ breaks src) ∧
    (readTokens src).1.Pairwise (fun a b => a.l = b.l → a.e ≤ b.b) := by
  obtain ⟨err, h1, h2⟩ := readTokens_lexes src
  obtain ⟨ha, hb, hc⟩ := lexes_lines h1
  refine ⟨fun t ht => ⟨by simpa using (ha t ht).2.1, (ha t ht).2.2.2⟩, fun e he => ?_, hc⟩
  rw [h2] at he
  cases err with
  | none => simp [errDiag] at he
  | some p =>
    simp only [errDiag, List.mem_singleton] at he
    rw [he]
    simpa using hb p rfl

theorem lineTokens_sublist (ts : List Token) (k : Nat) : (lineTokens ts k).Sublist ts := by
  unfold lineTokens
  split
  · exact List.filter_sublist
  · exact List.filter_sublist

/-- The begin of a line is not behind its end. -/
theorem lineBegin_le (src : Bytes) (k : Nat) :
    lineBegin (lineTokens (readTokens src).1 k) ≤ lineEnd (lineTokens (readTokens src).1 k) := by
  have hp := (readTokens_lines src).2.2.sublist (lineTokens_sublist _ k)
  have hok := lineOk (readTokens_seq src) k
  cases hl : lineTokens (readTokens src).1 k with
  | nil => exact Nat.le_refl _
  | cons t rest =>
    rw [hl] at hp hok
    rw [List.pairwise_cons] at hp
    have ht := hok.mem t (by simp)
    cases hr : rest.getLast? with
    | none =>
      rw [List.getLast?_eq_none_iff] at hr
      subst hr
      exact ht.2
    | some x =>
      have hx : x ∈ rest := List.mem_of_getLast? hr
      have h1 := hp.1 x hx
      have h2 := hok.mem x (by simp [hx])
      have h3 := h1 (ht.1.trans h2.1.symm)
      have : (t :: rest).getLast? = some x := by
        cases rest with
        | nil => simp at hr
        | cons a l => rw [List.getLast?_cons_cons]; exact hr
      unfold lineBegin lineEnd
      rw [this]
      show t.b ≤ x.e
      omega

theorem mem_lineTokens {src : Bytes} {k : Nat} {t : Token}
    (h : t ∈ lineTokens (readTokens src).1 k) : t ∈ (readTokens src).1 ∧ t.l = k :=
  ⟨(lineTokens_sublist _ k).subset h, ((lineOk (readTokens_seq src) k).mem t h).1⟩

theorem lineCount_le (src : Bytes) : lineCount (readTokens src).1 ≤ breaks src + 1 := by
  unfold lineCount
  cases h : (readTokens src).1.getLast? with
  | none => simp
  | some t =>
    have := ((readTokens_lines src).1 t (List.mem_of_getLast? h)).1
    simp; omega

/-! ## Lines are read independently -/

theorem processLine_congr (addrOk : Bytes → Bool) (s s' : Carry) (line : List Token) (o o' : LineOut)
    (hv : s.version = s'.version) (hm : s.mode = s'.mode)
    (h : processLine addrOk s line = some o) (h' : processLine addrOk s' line = some o') :
    o.ctx = o'.ctx ∧ o.ver = o'.ver ∧ o.opTok = o'.opTok ∧ o.next.version = o'.next.version ∧
      o.next.mode = o'.next.mode := by
  cases line with
  | nil =>
    rw [processLine] at h h'
    injection h with h; injection h' with h'
    subst h; subst h'
    simp [hv, hm]
  | cons t ts =>
    rw [processLine] at h h'
    simp only [← hv, ← hm] at h'
    revert h h'
    dsimp only
    repeat' split
    all_goals (intro h h')
    all_goals first
      | (injection h with h; injection h' with h'; subst h; subst h'; simp [hv, hm]; done)
      | (rw [Option.map_eq_some_iff] at h h'
         obtain ⟨a, h1, rfl⟩ := h
         obtain ⟨a', h1', rfl⟩ := h'
         rw [h1] at h1'
         injection h1' with h1'
         subst h1'
         simp [hv, hm])

end Teal
