import Verif.Lemmas.Shade
import Verif.Props.Doc

/-!
# Semantic highlighting

C88: which words are highlighted, and how.
-/

namespace Teal.Lsp
open Teal Teal.Spec Teal.Lsp.Spec Teal.Props P

/-! ## Operands -/

theorem shade_rows : ∀ e ∈ opsList,
    (e.name ∈ byteConstOps → e.shape.args ∈ [[⟨.bytes, false⟩], [⟨.bytes, true⟩]]) ∧
    (e.name ∈ [b!"addr", b!"method"] ++ jumpOps → e.shape.args ∈ [[⟨.addr, false⟩], [⟨.signature, false⟩], [⟨.label, false⟩], [⟨.label, true⟩]]) ∧
    (e.name ∉ byteConstOps ++ [b!"addr", b!"method"] ++ jumpOps → ∀ a ∈ e.shape.args, a.type ∉ [.bytes, .label, .signature, .addr]) := by
  decide +kernel

theorem specByName_documented (g : FieldGroup) (x : Bytes) :
    (g.specByName.get x).isSome = true ↔ ∃ (n : Nat) (d : DocField), (documented g)[n]? = some d ∧ d.name = x := by
  constructor
  · intro h
    have hin : ∃ spec' ∈ g.specs, g.str spec'.field = x := by
      refine Classical.byContradiction fun hno => ?_
      rw [specByName_none g x fun y hy he => hno ⟨y, hy, he⟩] at h
      cases h
    obtain ⟨spec, hm, rfl⟩ := hin
    obtain ⟨m, hm'⟩ := List.mem_iff_getElem?.1 hm
    have h1 := congrArg (fun l => l[m]?) (documented_specs g)
    simp only [List.getElem?_map, hm', Option.map_some] at h1
    obtain ⟨d, h2, h3⟩ := Option.map_eq_some_iff.1 h1
    exact ⟨m, d, h2, congrArg Prod.fst h3⟩
  · rintro ⟨n, d, h1, rfl⟩
    obtain ⟨s2, h6, h7, -⟩ := documented_spec g n d h1
    have h8 := (mem_specs_of_index g n s2 h6)
    have h9 := specByName_mem g s2 h8.1
    rw [h8.2, h7] at h9
    rw [h9]; rfl

/-- The highlighting of operands is that of the specification. -/
theorem operandShade_iff {w : Bytes} {e : OpEntry} (he : opsGet w = some e) (i : Nat) (x name : Bytes) :
    OperandShade w i x name ↔ legend[e.shape.shade (i + 1) x]? = some name := by
  obtain ⟨hm, hw⟩ := opsGet_mem he
  obtain ⟨h1, h2, h3⟩ := shade_rows e hm
  rw [hw] at h1 h2 h3
  have htab : ∀ n, TableName w i n x ↔ _ := fun n => tableName_iff he (n := n) (name := x)
  by_cases hb : w ∈ byteConstOps
  · have hs : e.shape.shade (i + 1) x = ArgType.bytes.shade x := by
      have := h1 hb
      simp only [List.mem_cons, List.not_mem_nil, or_false] at this
      rcases this with h | h
      · exact Shape.shade_one h (fun _ h => by cases h) _ _
      · exact Shape.shade_one h (fun _ h => by cases h) _ _
    have hnt : ∀ n, ¬ TableName w i n x := by
      intro n hn
      obtain ⟨f, a, h4, -⟩ := (htab n).1 hn
      have := h1 hb
      simp only [List.mem_cons, List.not_mem_nil, or_false] at this
      rcases this with h | h <;> rw [h] at h4 <;> rcases i with _ | i <;> simp at h4
    rw [hs]
    unfold ArgType.shade
    dsimp only
    by_cases hx : x ∈ encodings
    · rw [if_pos hx]
      constructor
      · rintro (⟨-, -⟩ | ⟨-, h⟩ | ⟨h⟩ | ⟨n, h⟩ | ⟨h, -⟩)
        · rfl
        · exact absurd hx h
        · exfalso; revert h hb; simp only [byteConstOps, jumpOps, List.mem_cons, List.mem_append, List.not_mem_nil, or_false]
          rintro (rfl | rfl | rfl | rfl) <;> decide +kernel
        · exact absurd h (hnt n)
        · exact absurd (List.mem_append_left _ (List.mem_append_left _ hb)) h
      · intro h
        have : name = b!"keyword" := by injection h with h; exact h.symm
        rw [this]; exact .encoding hb hx
    · rw [if_neg hx]
      constructor
      · rintro (⟨-, h⟩ | ⟨-, h⟩ | ⟨h⟩ | ⟨n, h⟩ | ⟨h, -⟩)
        · exact absurd h hx
        · rfl
        · rfl
        · rfl
        · exact absurd (List.mem_append_left _ (List.mem_append_left _ hb)) h
      · intro h
        have : name = b!"string" := by injection h with h; exact h.symm
        rw [this]; exact .bytes hb hx
  by_cases ht : w ∈ [b!"addr", b!"method"] ++ jumpOps
  · have hs : e.shape.shade (i + 1) x = 1 := by
      have := h2 ht
      simp only [List.mem_cons, List.not_mem_nil, or_false] at this
      rcases this with h | h | h | h <;> exact (Shape.shade_one h (fun _ h => by cases h) _ _).trans rfl
    rw [hs]
    constructor
    · rintro (⟨h, -⟩ | ⟨h, -⟩ | ⟨h⟩ | ⟨n, h⟩ | ⟨h, -⟩)
      · exact absurd h hb
      · rfl
      · rfl
      · rfl
      · rw [List.append_assoc] at h
        exact absurd (List.mem_append_right _ ht) h
    · intro h
      have : name = b!"string" := by injection h with h; exact h.symm
      rw [this]; exact .text ht
  · have hno : w ∉ byteConstOps ++ [b!"addr", b!"method"] ++ jumpOps := by
      rw [List.append_assoc, List.mem_append]; rintro (h | h)
      · exact hb h
      · exact ht h
    have h4 := h3 hno
    have key : (e.shape.shade (i + 1) x = 1 ∧ ∃ n, TableName w i n x) ∨ (e.shape.shade (i + 1) x = 6 ∧ ∀ n, ¬ TableName w i n x) := by
      unfold Shape.shade
      rw [Nat.add_sub_cancel]
      cases ha : e.shape.args[i]? with
      | some a =>
        obtain ⟨ty, ar⟩ := a
        have h5 := h4 _ (List.mem_of_getElem? ha)
        cases ty with
        | field r =>
          dsimp only
          unfold ArgType.shade
          dsimp only
          by_cases hd : (r.table.specByName.get x).isSome = true
          · left
            rw [if_pos hd]
            obtain ⟨n, d, h6, h7⟩ := (specByName_documented _ _).1 hd
            exact ⟨rfl, n, (htab n).2 ⟨r, ar, ha, d, h6, h7⟩⟩
          · right
            rw [if_neg hd]
            refine ⟨rfl, fun n hn => hd ?_⟩
            obtain ⟨f, a, h6, d, h7, h8⟩ := (htab n).1 hn
            rw [ha] at h6
            cases h6
            exact (specByName_documented _ _).2 ⟨n, d, h7, h8⟩
        | bytes => simp at h5
        | label => simp at h5
        | signature => simp at h5
        | addr => simp at h5
        | _ =>
          right
          refine ⟨rfl, fun n hn => ?_⟩
          obtain ⟨f, a, h6, -⟩ := (htab n).1 hn
          rw [ha] at h6; cases h6
      | none =>
        right
        refine ⟨?_, fun n hn => ?_⟩
        · dsimp only
          cases hl : e.shape.args.getLast? with
          | none => rfl
          | some a =>
            obtain ⟨ty, ar⟩ := a
            have h5 := h4 _ (List.mem_of_getLast? hl)
            cases ty <;> first | rfl | (simp at h5)
        · obtain ⟨f, a, h6, -⟩ := (htab n).1 hn
          rw [ha] at h6; cases h6
    rcases key with ⟨hs, n, hn⟩ | ⟨hs, hn⟩
    · rw [hs]
      constructor
      · rintro (⟨h, -⟩ | ⟨h, -⟩ | ⟨h⟩ | ⟨n, h⟩ | ⟨-, h⟩)
        · exact absurd h hb
        · rfl
        · rfl
        · rfl
        · exact absurd hn (h n)
      · intro h
        have : name = b!"string" := by injection h with h; exact h.symm
        rw [this]; exact .field n hn
    · rw [hs]
      constructor
      · rintro (⟨h, -⟩ | ⟨h, -⟩ | ⟨h⟩ | ⟨n, h⟩ | ⟨-, h⟩)
        · exact absurd h hb
        · exact absurd h hb
        · exact absurd h ht
        · exact absurd h (hn n)
        · rfl
      · intro h
        have : name = b!"number" := by injection h with h; exact h.symm
        rw [this]; exact .number hno hn

/-! ## Lines -/

theorem pragma_marks (p : Token) (rest : List Token) (v : Nat) (d : LineCtx)
    (h : recovered (P.opPragma { ts := p :: rest, i := 1, version := v }) = some d) :
    (∀ t, t ∈ d.mcrs ↔ t = p ∨ (rest.head? = some t ∧ t.v = b!"version")) ∧
    (∀ t ty, d.Mark t ty ↔ ty = 6 ∧ ∃ x rest', rest = x :: t :: rest' ∧ x.v = b!"version" ∧ (readInt t.v).isSome) ∧
    ((p :: rest).Nodup → (d.mcrs ++ d.recs).Nodup) := by
  rcases rest with _ | ⟨x, _ | ⟨y, rest⟩⟩
  · injection h with h
    subst h
    refine ⟨fun t => ?_, fun t ty => ?_, fun hnd => ?_⟩
    · simp [LineCtx.curr]
    · simp [LineCtx.Mark]
    · simp [LineCtx.recs, LineCtx.curr]
  · by_cases hx : x.v = b!"version"
    · have : P.opPragma { ts := [p, x], i := 1, version := v } = .fail
          { ts := [p, x], i := 3, version := v, mcrs := [p, x], diag := [parseDiag .missingArg x] } := by
        simp [P.opPragma, P.mustReadPragma, P.bind_apply, P.addMcr, P.mustRead, P.mustReadArg, P.scan, P.text, LineCtx.text,
          LineCtx.curr, P.pure_apply, hx, P.mustReadInt, P.failPrev, P.failToken, LineCtx.prev, parseDiag]
      rw [this] at h
      injection h with h
      subst h
      refine ⟨fun t => ?_, fun t ty => ?_, fun hnd => ?_⟩
      · simp only [List.mem_cons, List.not_mem_nil, or_false, List.head?_cons, Option.some.injEq]
        constructor
        · rintro (rfl | rfl)
          · exact .inl rfl
          · exact .inr ⟨rfl, hx⟩
        · rintro (rfl | ⟨rfl, -⟩)
          · exact .inl rfl
          · exact .inr rfl
      · simp [LineCtx.Mark]
      · simpa [LineCtx.recs] using hnd
    · have : P.opPragma { ts := [p, x], i := 1, version := v } = .fail
          { ts := [p, x], i := 2, version := v, mcrs := [p], diag := [parseDiag (.unknownPragma x.v) x] } := by
        simp [P.opPragma, P.mustReadPragma, P.bind_apply, P.addMcr, P.mustRead, P.mustReadArg, P.scan, P.text, LineCtx.text,
          LineCtx.curr, P.pure_apply, hx, P.failCurr, P.failToken, parseDiag]
      rw [this] at h
      injection h with h
      subst h
      refine ⟨fun t => ?_, fun t ty => ?_, fun hnd => ?_⟩
      · simp only [List.mem_cons, List.not_mem_nil, or_false, List.head?_cons, Option.some.injEq]
        constructor
        · rintro rfl; exact .inl rfl
        · rintro (rfl | ⟨rfl, h'⟩)
          · rfl
          · exact absurd h' hx
      · simp [LineCtx.Mark]
      · simp [LineCtx.recs]
  · by_cases hx : x.v = b!"version"
    · have hm : d.mcrs = [p, x] ∧ d.nums = (if (readInt y.v).isSome then [y] else []) ∧ d.strs = [] ∧ d.keys = [] ∧ d.refs = [] := by
        have e1 : ∀ c : LineCtx, c = { ts := p :: x :: y :: rest, i := 1, version := v } →
            P.opPragma c = match readInt y.v with
              | none => .fail { c with i := 3, mcrs := [p, x], diag := [parseDiag .badUint64 y] }
              | some n =>
                if n < 1 then .fail { c with i := 3, mcrs := [p, x], nums := [y], vtok := some y, diag := [parseDiag .badVersion y] }
                else .ok () { c with i := 3, mcrs := [p, x], nums := [y], vtok := some y, version := n, ops := [.pragma (n % 256)] } := by
          rintro c rfl
          cases hr : readInt y.v with
          | none =>
            simp [P.opPragma, P.mustReadPragma, P.bind_apply, P.addMcr, P.mustRead, P.mustReadArg, P.scan, P.text, LineCtx.text,
              LineCtx.curr, P.pure_apply, hx, P.mustReadInt, P.parseUint64, P.failCurr, P.failToken, parseDiag, P.orFail, hr]
          | some n =>
            by_cases hn : n < 1
            · dsimp only
              rw [if_pos hn]
              obtain rfl : n = 0 := by omega
              simp [P.opPragma, P.mustReadPragma, P.bind_apply, P.addMcr, P.mustRead, P.mustReadArg, P.scan, P.text, LineCtx.text,
                LineCtx.curr, P.pure_apply, hx, P.mustReadInt, P.parseUint64, P.failCurr, P.failToken, parseDiag, P.orFail, hr, hn,
                P.addNum, P.setVtok]
            · dsimp only
              rw [if_neg hn]
              have hn : n ≠ 0 := by omega
              simp [P.opPragma, P.mustReadPragma, P.bind_apply, P.addMcr, P.mustRead, P.mustReadArg, P.scan, P.text, LineCtx.text,
                LineCtx.curr, P.pure_apply, hx, P.mustReadInt, P.parseUint64, P.orFail, hr, hn, P.addNum, P.setVtok, P.setVersion, P.emit]
        rw [e1 _ rfl] at h
        cases hr : readInt y.v with
        | none =>
          rw [hr] at h
          injection h with h
          subst h
          exact ⟨rfl, rfl, rfl, rfl, rfl⟩
        | some n =>
          rw [hr] at h
          dsimp only at h
          by_cases hn : n < 1
          · rw [if_pos hn] at h
            injection h with h
            subst h
            exact ⟨rfl, rfl, rfl, rfl, rfl⟩
          · rw [if_neg hn] at h
            injection h with h
            subst h
            exact ⟨rfl, rfl, rfl, rfl, rfl⟩
      obtain ⟨h1, h2, h3, h4, h5⟩ := hm
      refine ⟨fun t => ?_, fun t ty => ?_, fun hnd => ?_⟩
      · rw [h1]
        simp only [List.mem_cons, List.not_mem_nil, or_false, List.head?_cons, Option.some.injEq]
        constructor
        · rintro (rfl | rfl)
          · exact .inl rfl
          · exact .inr ⟨rfl, hx⟩
        · rintro (rfl | ⟨rfl, -⟩)
          · exact .inl rfl
          · exact .inr rfl
      · unfold LineCtx.Mark
        rw [h2, h3, h4, h5]
        constructor
        · rintro (⟨h, rfl⟩ | ⟨h, -⟩ | ⟨h, -⟩ | ⟨h, -⟩)
          · by_cases hr : (readInt y.v).isSome
            · rw [if_pos hr] at h
              simp only [List.mem_singleton] at h
              subst h
              exact ⟨rfl, x, rest, rfl, hx, hr⟩
            · rw [if_neg hr] at h; cases h
          · cases h
          · cases h
          · cases h
        · rintro ⟨rfl, x', rest', he, -, hr⟩
          cases he
          left
          rw [if_pos hr]
          simp
      · unfold LineCtx.recs
        rw [h1, h2, h3, h4, h5]
        refine List.Nodup.sublist ?_ hnd
        split
        · exact ((List.nil_sublist rest).cons_cons y).cons_cons x |>.cons_cons p
        · exact ((List.nil_sublist (y :: rest)).cons_cons x).cons_cons p
    · have hm : P.opPragma { ts := p :: x :: y :: rest, i := 1, version := v } = .fail
          { ts := p :: x :: y :: rest, i := 2, version := v, mcrs := [p], diag := [parseDiag (.unknownPragma x.v) x] } := by
        simp [P.opPragma, P.mustReadPragma, P.bind_apply, P.addMcr, P.mustRead, P.mustReadArg, P.scan, P.text, LineCtx.text,
          LineCtx.curr, P.pure_apply, hx, P.failCurr, P.failToken, parseDiag]
      rw [hm] at h
      injection h with h
      subst h
      refine ⟨fun t => ?_, fun t ty => ?_, fun hnd => ?_⟩
      · simp only [List.mem_cons, List.not_mem_nil, or_false, List.head?_cons, Option.some.injEq]
        constructor
        · rintro rfl; exact .inl rfl
        · rintro (rfl | ⟨rfl, h'⟩)
          · rfl
          · exact absurd h' hx
      · constructor
        · rintro (⟨h, -⟩ | ⟨h, -⟩ | ⟨h, -⟩ | ⟨h, -⟩) <;> cases h
        · rintro ⟨-, x', rest', he, h', -⟩
          cases he
          exact absurd h' hx
      · simp [LineCtx.recs]

/-- How often a word of a line is recorded. -/
def lineTimes (line : List Token) (t : Token) : Nat :=
  match line with
  | w :: rest => if (w.v = b!"intcblock" ∨ w.v = b!"pushints") ∧ t ∈ rest then 2 else 1
  | [] => 1

theorem _root_.List.count_of_mem_nodup {l : List Token} (h : l.Nodup) {t : Token} (ht : t ∈ l) : l.count t = 1 := by
  have h1 := List.nodup_iff_count.1 h t
  have h2 := List.count_pos_iff.2 ht
  omega

theorem times_rows : ∀ e ∈ opsList, e.shape.times = if e.name = b!"intcblock" ∨ e.name = b!"pushints" then 2 else 1 := by decide +kernel

/-- What is recorded of a line. -/
def lineRecs (o : LineOut) : List Token := o.ctx.mcrs ++ o.opTok.toList ++ o.ctx.recs

/-- What is recorded of a line, with its highlighting. -/
def LineMark (o : LineOut) (t : Token) (ty : Nat) : Prop :=
  (t ∈ o.ctx.mcrs ∧ ty = 4) ∨ (o.opTok = some t ∧ ty = 0) ∨ o.ctx.Mark t ty

/-- What is to be recorded of a line. -/
inductive LineShade (line : List Token) : Token → Nat → Prop
  | pragma (t : Token) (h : line.head? = some t) (ht : t.v = b!"#pragma") : LineShade line t 4
  | version (p t : Token) (rest : List Token) (h : line = p :: t :: rest) (hp : p.v = b!"#pragma") (ht : t.v = b!"version") :
      LineShade line t 4
  | versionNumber (p v t : Token) (rest : List Token) (h : line = p :: v :: t :: rest)
      (hp : p.v = b!"#pragma") (hv : v.v = b!"version") (ht : (readInt t.v).isSome) : LineShade line t 6
  | opcode (t : Token) (h : line.head? = some t) (ht : (opsGet t.v).isSome) : LineShade line t 0
  | operand (o : Token) (rest : List Token) (e : OpEntry) (i : Nat) (t : Token) (h : line = o :: rest)
      (he : opsGet o.v = some e) (hi : rest[i]? = some t) : LineShade line t (e.shape.shade (i + 1) t.v)

theorem no_marks {o : LineOut} {t : Token} {ty : Nat} (h1 : o.ctx.mcrs = []) (h2 : o.opTok = none) (h3 : o.ctx.nums = [])
    (h4 : o.ctx.strs = []) (h5 : o.ctx.keys = []) (h6 : o.ctx.refs = []) : ¬ LineMark o t ty := by
  unfold LineMark LineCtx.Mark
  rw [h1, h2, h3, h4, h5, h6]
  simp

theorem comment_marks {addrOk : Bytes → Bool} {s : Carry} {c : Token} {o : LineOut} (hc : c.t = .comment)
    (h : processLine addrOk s [c] = some o) (t : Token) (ty : Nat) : ¬ LineMark o t ty := by
  unfold processLine at h
  dsimp only at h
  rw [if_pos hc] at h
  split at h <;> (injection h with h; subst h; exact no_marks rfl rfl rfl rfl rfl rfl)

theorem line_marks {addrOk : Bytes → Bool} {s : Carry} {line : List Token} {o : LineOut} (hv : ∀ t ∈ line, t.t = .value ∧ t.v ≠ []) (hnd : line.Nodup)
    (h : processLine addrOk s line = some o) (t : Token) (ty : Nat) :
    (LineMark o t ty → LineShade line t ty) ∧
    ((∀ w rest e (i : Nat), line = w :: rest → opsGet w.v = some e → rest[i]? = some t → ∀ x ∈ o.ctx.diag, ∀ w, x.kind ≠ .parse w) →
      LineShade line t ty → LineMark o t ty) ∧
    (LineMark o t ty → (lineRecs o).count t = lineTimes line t) := by
  cases line with
  | nil =>
    injection h with h
    subst h
    refine ⟨?_, ?_, ?_⟩
    · exact fun h => absurd h (no_marks rfl rfl rfl rfl rfl rfl)
    rotate_left
    · exact fun h => absurd h (no_marks rfl rfl rfl rfl rfl rfl)
    · rintro - (⟨_, h, -⟩ | ⟨_, _, _, h⟩ | ⟨_, _, _, _, h⟩ | ⟨_, h, -⟩ | ⟨_, _, _, _, _, h⟩) <;> cases h
  | cons curr rest =>
    have h0 := hv curr (by simp)
    unfold processLine at h
    dsimp only at h
    rw [if_neg (by rw [h0.1]; decide)] at h
    by_cases hl : curr.v.getLast? = some chColon
    · rw [if_pos hl] at h
      have hno : ¬ LineShade (curr :: rest) t ty := by
        have hp : curr.v ≠ b!"#pragma" := by intro hp; rw [hp] at hl; revert hl; decide
        have ho : ∀ e, opsGet curr.v ≠ some e := fun e he =>
          (opsList_names e (opsGet_mem he).1).1 (by rw [(opsGet_mem he).2]; exact hl)
        rintro (⟨_, h, h'⟩ | ⟨_, _, _, h, h'⟩ | ⟨_, _, _, _, h, h'⟩ | ⟨_, h, h'⟩ | ⟨_, _, _, _, _, h, h'⟩) <;> cases h
        · exact hp h'
        · exact hp h'
        · exact hp h'
        · obtain ⟨e, he⟩ := Option.isSome_iff_exists.1 h'; exact ho e he
        · exact ho _ h'
      have hnm : ¬ LineMark o t ty := by
        split at h
        · injection h with h
          subst h
          exact no_marks rfl rfl rfl rfl rfl rfl
        · injection h with h
          subst h
          exact no_marks rfl rfl rfl rfl rfl rfl
      exact ⟨fun hm => absurd hm hnm, fun _ h => absurd h hno, fun hm => absurd hm hnm⟩
    · rw [if_neg hl, if_neg h0.2] at h
      by_cases hp : curr.v = b!"#pragma"
      · rw [if_pos hp] at h
        have ho : ∀ e, opsGet curr.v ≠ some e := fun e he =>
          (opsList_names e (opsGet_mem he).1).2.2 (by rw [(opsGet_mem he).2]; exact hp)
        cases hr : recovered (P.opPragma { ts := curr :: rest, i := 1, version := s.version }) with
        | none => rw [hr] at h; cases h
        | some d =>
          rw [hr] at h
          injection h with h
          subst h
          obtain ⟨hm, hk, hpn⟩ := pragma_marks curr rest s.version d hr
          refine ⟨?_, ?_, ?_⟩
          rotate_right
          · intro hmk
            have h1 : t ∈ d.mcrs ++ d.recs := by
              rcases hmk with ⟨h, -⟩ | ⟨h, -⟩ | h
              · exact List.mem_append_left _ h
              · cases h
              · exact List.mem_append_right _ (LineCtx.mem_recs.2 ⟨ty, h⟩)
            unfold lineRecs lineTimes
            dsimp only
            rw [if_neg (by rw [hp]; rintro ⟨h | h, -⟩ <;> revert h <;> decide)]
            simp only [Option.toList_none, List.append_nil]
            exact List.count_of_mem_nodup (hpn hnd) h1
          · rintro (⟨h, rfl⟩ | ⟨h, -⟩ | h)
            · rcases (hm t).1 h with rfl | ⟨h1, h2⟩
              · exact .pragma _ rfl hp
              · cases rest with
                | nil => cases h1
                | cons a rest =>
                  injection h1 with h1
                  subst h1
                  exact .version _ _ rest rfl hp h2
            · cases h
            · obtain ⟨rfl, x, rest', rfl, h2, h3⟩ := (hk t ty).1 h
              exact .versionNumber _ _ _ rest' rfl hp h2 h3
          · rintro - (⟨_, h, h'⟩ | ⟨_, _, _, h, h', h2⟩ | ⟨_, _, _, rest', h, h', h2, h3⟩ | ⟨_, h, h'⟩ | ⟨_, _, _, _, _, h, h'⟩) <;> cases h
            · exact .inl ⟨(hm _).2 (.inl rfl), rfl⟩
            · exact .inl ⟨(hm _).2 (.inr ⟨rfl, h2⟩), rfl⟩
            · exact .inr (.inr ((hk _ _).2 ⟨rfl, _, rest', rfl, h2, h3⟩))
            · obtain ⟨e, he⟩ := Option.isSome_iff_exists.1 h'; exact absurd he (ho e)
            · exact absurd h' (ho _)
      · rw [if_neg hp] at h
        cases he : opsGet curr.v with
        | none =>
          rw [he] at h
          injection h with h
          subst h
          refine ⟨fun hm => absurd hm (no_marks rfl rfl rfl rfl rfl rfl), ?_, fun hm => absurd hm (no_marks rfl rfl rfl rfl rfl rfl)⟩
          rintro - (⟨_, h, h'⟩ | ⟨_, _, _, h, h', h2⟩ | ⟨_, _, _, rest', h, h', h2, h3⟩ | ⟨_, h, h'⟩ | ⟨_, _, _, _, _, h, h'⟩) <;> cases h
          · exact absurd h' hp
          · exact absurd h' hp
          · exact absurd h' hp
          · rw [he] at h'; cases h'
          · rw [he] at h'; cases h'
        | some e =>
          rw [he] at h
          dsimp only at h
          generalize hc : ({ ts := curr :: rest, i := 1, version := s.version, diag := availDiags s.mode (e.minVersion s.mode) s.version curr } : LineCtx) = c at h
          have hcts : c.ts = curr :: rest := by rw [← hc]
          have hci : c.i = 1 := by rw [← hc]
          cases hr : recovered (parseOp addrOk e c) with
          | none => rw [hr] at h; cases h
          | some d =>
            rw [hr] at h
            injection h with h
            subst h
            have hnext : Next e.shape.shading 1 c := by
              refine ⟨⟨⟨by omega, by rw [hci, hcts]; simp, by rw [hcts]; simp, fun t ht => (hv t (by rw [← hcts]; exact ht)).2⟩, fun t ty => ?_,
                hcts ▸ hnd, fun t ht => by rw [← hc] at ht; cases ht⟩, hci⟩
              constructor
              · rw [← hc]
                rintro (⟨h, -⟩ | ⟨h, -⟩ | ⟨h, -⟩ | ⟨h, -⟩) <;> cases h
              · rintro ⟨p, h1, h2, -⟩; omega
            obtain ⟨m1, m2, m3⟩ := parseOp_marks addrOk e hnext hr
            obtain ⟨d', hd', hdone⟩ := parseOp_done addrOk e c (by rw [hcts]; simp) hnext.1.mid.text hci (by rw [← hc])
              (by rw [← hc]) (by rw [← hc]) (by rw [← hc]) (by rw [← hc])
            rw [hr] at hd'
            injection hd' with hd'
            subst hd'
            have hdts : d.ts = curr :: rest := by rw [hdone.ts, hcts]
            have hdm : d.mcrs = [] := by rw [m2, ← hc]
            refine ⟨?_, ?_, ?_⟩
            rotate_right
            · intro hmk
              have hcr : curr ∉ rest := (List.nodup_cons.1 hnd).1
              have hrest : ∀ t ∈ d.recs, t ∈ rest := by
                intro t ht
                obtain ⟨y, hy⟩ := LineCtx.mem_recs.1 ht
                obtain ⟨p, h1, h2, -⟩ := m1.1 t y hy
                rw [hdts] at h2
                cases p with
                | zero => omega
                | succ p => exact List.mem_of_getElem? h2
              have htm : e.shape.times = if curr.v = b!"intcblock" ∨ curr.v = b!"pushints" then 2 else 1 := by
                rw [← (opsGet_mem he).2]; exact times_rows e (opsGet_mem he).1
              unfold lineRecs lineTimes
              dsimp only
              rw [hdm, List.nil_append, Option.toList_some, List.count_append, List.count_singleton]
              by_cases htc : t = curr
              · subst htc
                rw [List.count_eq_zero.2 (fun h => hcr (hrest _ h)), if_pos (by simp)]
                exact (if_neg (fun h => hcr h.2)).symm
              · have h1 : t ∈ d.recs := by
                  rcases hmk with ⟨h, -⟩ | ⟨h, -⟩ | h
                  · dsimp only at h; rw [hdm] at h; cases h
                  · dsimp only at h; injection h with h; exact absurd h.symm htc
                  · exact LineCtx.mem_recs.2 ⟨ty, h⟩
                rw [m1.2 t h1]
                have : (curr == t) = false := by simpa using Ne.symm htc
                rw [this, if_neg (by decide), Nat.zero_add]
                show e.shape.times = _
                rw [htm]
                have h2 := hrest t h1
                by_cases hw : curr.v = b!"intcblock" ∨ curr.v = b!"pushints"
                · rw [if_pos hw, if_pos ⟨hw, h2⟩]
                · rw [if_neg hw, if_neg (fun h => hw h.1)]
            · rintro (⟨h, rfl⟩ | ⟨h, rfl⟩ | h)
              · dsimp only at h; rw [hdm] at h; cases h
              · dsimp only at h
                injection h with h
                subst h
                exact .opcode _ rfl (by rw [he]; rfl)
              · obtain ⟨p, h1, h2, rfl⟩ := m1.1 t ty h
                rw [hdts] at h2
                cases p with
                | zero => omega
                | succ p => exact .operand curr rest e p t rfl he h2
            · rintro hno (⟨_, h, h'⟩ | ⟨_, _, _, h, h', h2⟩ | ⟨_, _, _, rest', h, h', h2, h3⟩ | ⟨_, h, h'⟩ | ⟨_, _, _, i, _, h, h', h2⟩) <;> cases h
              · exact absurd h' hp
              · exact absurd h' hp
              · exact absurd h' hp
              · exact .inr (.inl ⟨rfl, rfl⟩)
              · rw [he] at h'
                injection h' with h'
                subst h'
                refine .inr (.inr ((m3 (hno curr rest _ i rfl he h2) t _).2 ⟨i + 1, by omega, ?_, ?_, rfl⟩))
                · rw [hdts]
                  have := (List.getElem?_eq_some_iff.1 h2).1
                  simp only [List.length_cons]; omega
                · rw [hdts]; exact h2

/-! ## All lines -/

theorem _root_.Teal.Run.det {addrOk : Bytes → Bool} {s : Carry} {ls : List (List Token)} {os os' : List LineOut} (h : Run addrOk s ls os)
    (h' : Run addrOk s ls os') : os = os' := by
  induction h generalizing os' with
  | nil s => cases h'; rfl
  | cons s line o ls os h hf hr ih =>
    cases h' with
    | cons _ _ o' _ os' h' _ hr' =>
      rw [h] at h'
      injection h' with h'
      subst h'
      rw [ih hr']

theorem _root_.Teal.Run.inv {addrOk : Bytes → Bool} {s : Carry} {ls : List (List Token)} {os : List LineOut} (h : Run addrOk s ls os) {o : LineOut}
    (ho : o ∈ os) : ∃ (k : Nat) (line : List Token) (s' : Carry), ls[k]? = some line ∧ os[k]? = some o ∧ processLine addrOk s' line = some o ∧
      LineFacts s' line o := by
  obtain ⟨k, hk⟩ := List.mem_iff_getElem?.1 ho
  have hlt : k < ls.length := by rw [← h.length]; exact (List.getElem?_eq_some_iff.1 hk).1
  obtain ⟨o', h1, h2, h3⟩ := h.get k ls[k] (List.getElem?_eq_getElem hlt)
  rw [hk] at h1
  injection h1 with h1
  subst h1
  exact ⟨k, _, _, List.getElem?_eq_getElem hlt, hk, h2, h3⟩

/-- What is collected comes from the lines, the comments and the symbols. -/
theorem mem_semTokens {env : Env} {src : Bytes} {r : ProcessResult} {os : List LineOut} (hr : Run env.addrOk {} (linesOf src) os)
    (ha : assemble env (readTokens src).2 (linesOf src) os = some r) (x : SemanticToken) :
    x ∈ semTokens r src ↔
      (∃ o ∈ os, ∃ t ty, LineMark o t ty ∧ x = semToken t.l t.b t.e ty) ∨
      (∃ t ∈ tokens src, t.t = .comment ∧ x = semToken t.l t.b t.e 2) ∨
      (∃ s ∈ r.symbols, x = semToken s.l s.b s.e 3) := by
  unfold assemble at ha
  simp only [Option.map_eq_some_iff] at ha
  obtain ⟨lds, -, rfl⟩ := ha
  unfold semTokens
  simp only [List.mem_append, List.mem_map, List.mem_flatMap, List.mem_filter, List.mem_filterMap, decide_eq_true_eq]
  constructor
  · rintro (((((((⟨t, ⟨o, ho, h⟩, rfl⟩ | ⟨t, ⟨⟨o, ho, h⟩, -⟩, rfl⟩) | ⟨t, ⟨o, ho, h⟩, rfl⟩) | ⟨t, ⟨o, ho, h⟩, rfl⟩) | ⟨t, ⟨o, ho, h⟩, rfl⟩) |
      ⟨t, ⟨h1, h2⟩, rfl⟩) | ⟨s, h, rfl⟩) | ⟨t, ⟨o, ho, h⟩, rfl⟩)
    · exact .inl ⟨o, ho, t, 4, .inl ⟨h, rfl⟩, rfl⟩
    · exact .inl ⟨o, ho, t, 0, .inr (.inl ⟨h, rfl⟩), rfl⟩
    · exact .inl ⟨o, ho, t, 6, .inr (.inr (.inl ⟨h, rfl⟩)), rfl⟩
    · exact .inl ⟨o, ho, t, 1, .inr (.inr (.inr (.inl ⟨h, rfl⟩))), rfl⟩
    · exact .inl ⟨o, ho, t, 0, .inr (.inr (.inr (.inr (.inl ⟨h, rfl⟩)))), rfl⟩
    · exact .inr (.inl ⟨t, h1, h2, rfl⟩)
    · exact .inr (.inr ⟨s, h, rfl⟩)
    · exact .inl ⟨o, ho, t, 1, .inr (.inr (.inr (.inr (.inr ⟨h, rfl⟩)))), rfl⟩
  · rintro (⟨o, ho, t, ty, h, rfl⟩ | ⟨t, h1, h2, rfl⟩ | ⟨s, h, rfl⟩)
    · rcases h with ⟨h, rfl⟩ | ⟨h, rfl⟩ | ⟨h, rfl⟩ | ⟨h, rfl⟩ | ⟨h, rfl⟩ | ⟨h, rfl⟩
      · exact .inl (.inl (.inl (.inl (.inl (.inl (.inl ⟨t, ⟨o, ho, h⟩, rfl⟩))))))
      · refine .inl (.inl (.inl (.inl (.inl (.inl (.inr ⟨t, ⟨⟨o, ho, h⟩, ?_⟩, rfl⟩))))))
        obtain ⟨k, line, s', -, -, -, hf⟩ := hr.inv ho
        rw [hf.opTok] at h
        cases line with
        | nil => cases h
        | cons a rest =>
          unfold instrOf at h
          dsimp only at h
          split at h
          · rename_i hv
            cases hg : opsGet a.v with
            | none => rw [hg] at h; cases h
            | some e => rw [hg] at h; injection h with h; subst h; exact hv
          · cases h
      · exact .inl (.inl (.inl (.inl (.inl (.inr ⟨t, ⟨o, ho, h⟩, rfl⟩)))))
      · exact .inl (.inl (.inl (.inl (.inr ⟨t, ⟨o, ho, h⟩, rfl⟩))))
      · exact .inl (.inl (.inl (.inr ⟨t, ⟨o, ho, h⟩, rfl⟩)))
      · exact .inr ⟨t, ⟨o, ho, h⟩, rfl⟩
    · exact .inl (.inl (.inr ⟨t, ⟨h1, h2⟩, rfl⟩))
    · exact .inl (.inr ⟨s, h, rfl⟩)

theorem lexes_bound {l c : Nat} {s : Bytes} {ts : List Token} {err : Option (Nat × Nat)} (h : Lexes l c s ts err) :
    ∀ t ∈ ts, t.l ≤ l + s.length ∧ t.b ≤ t.e ∧ t.e ≤ c + s.length := by
  induction h with
  | done => simp
  | blank l c x rest ts err hx h ih =>
    intro t ht
    have := ih t ht
    simp only [List.length_cons]; omega
  | eol l c raw rest ts err hraw h ih =>
    have hl : 1 ≤ raw.length := by rcases hraw with rfl | rfl | ⟨rfl, -⟩ <;> simp
    intro t ht
    simp only [List.length_append]
    rcases List.mem_cons.1 ht with rfl | ht
    · dsimp only; omega
    · have := ih t ht; omega
  | comment l c v rest ts err hv hrest h ih =>
    intro t ht
    simp only [List.length_append, List.length_cons]
    rcases List.mem_cons.1 ht with rfl | ht
    · dsimp only; omega
    · have := ih t ht; omega
  | bare l c v rest ts err hne hq hsl hv hrest h ih =>
    intro t ht
    simp only [List.length_append]
    rcases List.mem_cons.1 ht with rfl | ht
    · dsimp only; omega
    · have := ih t ht; omega
  | quoted l c body rest ts err hb hlast h ih =>
    intro t ht
    simp only [List.length_append, List.length_cons]
    rcases List.mem_cons.1 ht with rfl | ht
    · dsimp only; omega
    · have := ih t ht; omega
  | unterminated => simp

theorem highlights_semToken (t : Token) (ty : Nat) (name : Bytes) (h : legend[ty]? = some name) :
    Highlights (semToken t.l t.b t.e ty) t name := by
  refine ⟨rfl, rfl, rfl, ?_, ?_, rfl⟩
  · exact Int.natCast_nonneg _
  · show legend[(ty : Int).toNat]? = _
    rw [Int.toNat_natCast]; exact h

/-- What a line is to record is what is to be highlighted. -/
theorem lineShade_shade {src : Bytes} {k : Nat} {t : Token} {ty : Nat} (h : LineShade (words (tokens src) k) t ty) :
    t ∈ tokens src ∧ ∃ name, legend[ty]? = some name ∧ Shade (tokens src) t name := by
  have hmem : ∀ t ∈ words (tokens src) k, t ∈ tokens src := fun t h => (mem_words.1 h).1
  cases h with
  | pragma t h ht => exact ⟨hmem _ (List.mem_of_mem_head? h), _, rfl, .pragma k t h ht⟩
  | version p t rest h hp ht => exact ⟨hmem _ (by rw [h]; simp), _, rfl, .version k p t rest h hp ht⟩
  | versionNumber p v t rest h hp hv ht =>
    obtain ⟨n, hn⟩ := Option.isSome_iff_exists.1 ht
    exact ⟨hmem _ (by rw [h]; simp), _, rfl, .versionNumber k p v t rest n h hp hv ((parseUint0_iff 64 (Nat.le_refl _) _ n).1 hn)⟩
  | opcode t h ht => exact ⟨hmem _ (List.mem_of_mem_head? h), _, rfl, .opcode k t h ((known_op _).1 ht)⟩
  | operand o rest e i t h he hi =>
    have hlt : e.shape.shade (i + 1) t.v < legend.length := by
      have : ∀ (sh : Shape) (p : Nat) (x : Bytes), sh.shade p x < legend.length := by
        intro sh p x
        unfold Shape.shade
        have ht : ∀ (a : ArgType), a.shade x < legend.length := by
          intro a
          unfold ArgType.shade
          repeat' split
          all_goals decide
        repeat' split
        all_goals first
          | exact ht _
          | decide
      exact this _ _ _
    have hlg := List.getElem?_eq_getElem hlt
    exact ⟨hmem _ (by rw [h]; exact List.mem_cons_of_mem _ (List.mem_of_getElem? hi)), _, hlg,
      .operand k o.v i t _ ⟨o, rest, h, rfl, (known_op _).1 (by rw [he]; rfl), hi⟩ ((operandShade_iff he i t.v _).2 hlg)⟩

end Teal.Lsp

namespace Teal.Props
open Teal Teal.Spec Teal.Lsp Teal.Lsp.Spec P

theorem words_nodup (src : Bytes) (k : Nat) : (words (tokens src) k).Nodup := by
  refine List.Pairwise.imp_of_mem ?_ (words_pairwise src k)
  rintro a b ha hb h rfl
  have hm := mem_words.1 ha
  have := value_width hm.1 hm.2.2
  omega

/-- The tokens collected, by what is to be highlighted. -/
theorem semTokens_sound {env : Env} {src : Bytes} {r : ProcessResult} (h : process env src = some r) (x : SemanticToken)
    (hx : x ∈ semTokens r src) : ∃ t ∈ tokens src, ∃ name, Shade (tokens src) t name ∧ Highlights x t name := by
  obtain ⟨os, hr, ha⟩ := process_run h
  rcases (mem_semTokens hr ha x).1 hx with ⟨o, ho, t, ty, hm, rfl⟩ | ⟨t, h1, h2, rfl⟩ | ⟨s, hs, rfl⟩
  · obtain ⟨k, line, s', hl, hk, hp, hf⟩ := hr.inv ho
    obtain ⟨hlt, rfl⟩ := (linesOf_get src k line).1 hl
    have hok := lineOk (readTokens_seq src) k
    have hsh : LineShade (words (tokens src) k) t ty := by
      unfold lineTokens at hp hok
      by_cases hw : words (tokens src) k = []
      · rw [if_pos hw] at hp hok
        rcases hok.shape with ⟨c, h1, h2⟩ | h2
        · rw [h1] at hp
          exact absurd hm (comment_marks h2 hp t ty)
        · cases hc : comments (tokens src) k with
          | nil =>
            rw [hc] at hp
            rw [hw]
            exact (line_marks (by simp) .nil hp t ty).1 hm
          | cons c rest =>
            have := (mem_comments.1 (by rw [hc]; simp : c ∈ comments (tokens src) k)).2.2
            rw [(h2 c (by rw [hc]; simp)).1] at this
            cases this
      · rw [if_neg hw] at hp hok
        rcases hok.shape with ⟨c, h1, h2⟩ | h2
        · have := (mem_words.1 (by rw [h1]; simp : c ∈ words (tokens src) k)).2.2
          rw [h2] at this
          cases this
        · exact (line_marks h2 (words_nodup src k) hp t ty).1 hm
    obtain ⟨h1, name, h2, h3⟩ := lineShade_shade hsh
    exact ⟨t, h1, name, h3, highlights_semToken t ty name h2⟩
  · exact ⟨t, h1, _, .comment t h1 h2, highlights_semToken t 2 _ rfl⟩
  · obtain ⟨t, h1, h2, h3, h4⟩ := (mem_symbols h s.name s.l s.b s.e).1 ⟨s, hs, rfl, rfl, rfl, rfl⟩
    have h5 : (words (tokens src) s.l).head? = some t := by
      unfold labelWord at h1
      exact (Option.filter_eq_some_iff.1 h1).1
    have hm := mem_words.1 (List.mem_of_mem_head? h5)
    obtain ⟨h6, h7⟩ := labelName_eq.1 h2
    refine ⟨t, hm.1, _, .label s.l t s.name h5 h6 h7, ?_⟩
    rw [← h3, ← h4, ← hm.2.1]
    exact highlights_semToken t 3 _ rfl

theorem semTokens_complete {env : Env} {src : Bytes} {r : ProcessResult} (h : process env src = some r) (t : Token) (name : Bytes)
    (hs : Shade (tokens src) t name) (hread : ∀ k w i, OperandAt (tokens src) k w i t → ReadsWell env.addrOk src k) :
    ∃ x ∈ semTokens r src, Highlights x t name := by
  obtain ⟨os, hr, ha⟩ := process_run h
  have key : ∀ (k ty : Nat), LineShade (words (tokens src) k) t ty → legend[ty]? = some name →
      ∃ x ∈ semTokens r src, Highlights x t name := by
    intro k ty hsh hl
    have hne : words (tokens src) k ≠ [] := by
      intro h0
      rw [h0] at hsh
      rcases hsh with (⟨_, h, -⟩ | ⟨_, _, _, h⟩ | ⟨_, _, _, _, h⟩ | ⟨_, h, -⟩ | ⟨_, _, _, _, _, h⟩) <;> cases h
    obtain ⟨w0, rest0, hw0⟩ : ∃ w rest, words (tokens src) k = w :: rest := List.exists_cons_of_ne_nil hne
    have hlt : k < lineCount (tokens src) := by
      have hm := mem_words.1 (by rw [hw0]; simp : w0 ∈ words (tokens src) k)
      have := line_lt_count src w0 hm.1
      omega
    have hlt' : lineTokens (tokens src) k = words (tokens src) k := by unfold lineTokens; rw [if_neg hne]
    obtain ⟨o, ho, hp, hf⟩ := hr.get k (words (tokens src) k) ((linesOf_get src k _).2 ⟨hlt, hlt'.symm⟩)
    have hok := lineOk (readTokens_seq src) k
    rw [show lineTokens (readTokens src).1 k = words (tokens src) k from hlt'] at hok
    have hv : ∀ t ∈ words (tokens src) k, t.t = .value ∧ t.v ≠ [] := by
      rcases hok.shape with ⟨c, h1, h2⟩ | h2
      · have := (mem_words.1 (by rw [h1]; simp : c ∈ words (tokens src) k)).2.2
        rw [h2] at this
        cases this
      · exact h2
    refine ⟨_, (mem_semTokens hr ha _).2 (.inl ⟨o, List.mem_of_getElem? ho, t, ty, (line_marks hv (words_nodup src k) hp t ty).2.1 ?_ hsh, rfl⟩),
      highlights_semToken t ty name hl⟩
    intro w rest e i hw he hi d hd why hk
    obtain ⟨mp, r', hr', hno⟩ := hread k w.v i ⟨w, rest, hw, rfl, (known_op _).1 (by rw [he]; rfl), hi⟩
    obtain ⟨os', hrun', ha'⟩ := process_run hr'
    obtain rfl : os = os' := Run.det hr hrun'
    obtain ⟨lds, -, -, hdiag, -⟩ := assemble_eq ha'
    refine hno d ?_ ?_ why hk
    · rw [hdiag]
      exact List.mem_append_left _ (List.mem_append_right _ (List.mem_flatMap.2 ⟨o, List.mem_of_getElem? ho, hd⟩))
    · obtain ⟨t', ht', h1, -⟩ := hf.diagPos d hd
      rw [h1]; exact (mem_words.1 ht').2.1
  cases hs with
  | comment t h1 h2 =>
    exact ⟨_, (mem_semTokens hr ha _).2 (.inr (.inl ⟨t, h1, h2, rfl⟩)), highlights_semToken t 2 _ rfl⟩
  | label k t n h1 h2 h3 =>
    have hm := mem_words.1 (List.mem_of_mem_head? h1)
    have hlw : labelWord (tokens src) k = some t := by
      unfold labelWord
      rw [h1, Option.filter_some, labelName_eq.2 ⟨h2, h3⟩]
      rfl
    obtain ⟨s, hs, e1, e2, e3, e4⟩ := (mem_symbols h n k t.b t.e).2 ⟨t, hlw, labelName_eq.2 ⟨h2, h3⟩, rfl, rfl⟩
    refine ⟨_, (mem_semTokens hr ha _).2 (.inr (.inr ⟨s, hs, rfl⟩)), ?_⟩
    rw [e2, e3, e4, ← hm.2.1]
    exact highlights_semToken t 3 _ rfl
  | pragma k t h1 h2 => exact key k 4 (.pragma t h1 h2) rfl
  | version k p t rest h1 h2 h3 => exact key k 4 (.version p t rest h1 h2 h3) rfl
  | versionNumber k p v t rest n h1 h2 h3 h4 =>
    exact key k 6 (.versionNumber p v t rest h1 h2 h3 (by rw [show readInt t.v = some n from (parseUint0_iff 64 (Nat.le_refl _) _ n).2 h4]; rfl)) rfl
  | opcode k t h1 h2 => exact key k 0 (.opcode t h1 ((known_op _).2 h2)) rfl
  | operand k w i t name h1 h2 =>
    obtain ⟨o, rest, hw, rfl, hd, hi⟩ := h1
    obtain ⟨e, he⟩ := Option.isSome_iff_exists.1 ((known_op _).2 hd)
    exact key k _ (.operand o rest e i t hw he hi) ((operandShade_iff he i t.v name).1 h2)

/-- How word `i` of a line is to be highlighted. -/
def slotShade (line : List Token) (i : Nat) (v : Bytes) : Option Bytes :=
  match line.head? with
  | none => none
  | some o =>
    if i = 0 then if v.getLast? = some chColon then some b!"method" else if v = b!"#pragma" then some b!"macro" else some b!"keyword"
    else if o.v = b!"#pragma" then if i = 1 then some b!"macro" else some b!"number"
    else (opsGet o.v).bind fun e => legend[e.shape.shade i v]?

theorem shade_slot {ts : List Token} {t : Token} {name : Bytes} (h : Shade ts t name) :
    (t.t = .comment ∧ name = b!"comment") ∨
    (t.t = .value ∧ ∃ i : Nat, (words ts t.l)[i]? = some t ∧ slotShade (words ts t.l) i t.v = some name) := by
  have hname : ∀ w, (opsGet w).isSome → w.getLast? ≠ some chColon ∧ w ≠ b!"#pragma" := by
    intro w hw
    obtain ⟨e, he⟩ := Option.isSome_iff_exists.1 hw
    refine ⟨fun h => (opsList_names e (opsGet_mem he).1).1 (by rw [(opsGet_mem he).2]; exact h), ?_⟩
    rintro rfl
    revert hw
    decide +kernel
  cases h with
  | comment _ h1 h2 => exact .inl ⟨h2, rfl⟩
  | label k _ n h1 h2 h3 =>
    have hm := mem_words.1 (List.mem_of_mem_head? h1)
    obtain ⟨-, rfl, hv⟩ := hm
    refine .inr ⟨hv, 0, by rw [← List.head?_eq_getElem?, h1], ?_⟩
    unfold slotShade
    rw [h1]
    simp [h2]
  | pragma k _ h1 h2 =>
    obtain ⟨-, rfl, hv⟩ := mem_words.1 (List.mem_of_mem_head? h1)
    refine .inr ⟨hv, 0, by rw [← List.head?_eq_getElem?, h1], ?_⟩
    unfold slotShade
    rw [h1]
    dsimp only
    rw [h2]
    decide
  | version k p _ rest h1 h2 h3 =>
    obtain ⟨-, rfl, hv⟩ := mem_words.1 (show t ∈ words ts k by rw [h1]; simp)
    refine .inr ⟨hv, 1, by rw [h1]; rfl, ?_⟩
    unfold slotShade
    rw [h1]
    simp [h2]
  | versionNumber k p v _ rest n h1 h2 h3 h4 =>
    obtain ⟨-, rfl, hv⟩ := mem_words.1 (show t ∈ words ts k by rw [h1]; simp)
    refine .inr ⟨hv, 2, by rw [h1]; rfl, ?_⟩
    unfold slotShade
    rw [h1]
    simp [h2]
  | opcode k _ h1 h2 =>
    obtain ⟨-, rfl, hv⟩ := mem_words.1 (List.mem_of_mem_head? h1)
    refine .inr ⟨hv, 0, by rw [← List.head?_eq_getElem?, h1], ?_⟩
    obtain ⟨h3, h4⟩ := hname t.v ((known_op _).2 h2)
    unfold slotShade
    rw [h1]
    simp [h3, h4]
  | operand k w i _ _ h1 h2 =>
    obtain ⟨o, rest, hw, rfl, hd, hi⟩ := h1
    obtain ⟨-, rfl, hv⟩ := mem_words.1 (show t ∈ words ts k by rw [hw]; exact List.mem_cons_of_mem _ (List.mem_of_getElem? hi))
    obtain ⟨e, he⟩ := Option.isSome_iff_exists.1 ((known_op _).2 hd)
    refine .inr ⟨hv, i + 1, by rw [hw]; exact hi, ?_⟩
    obtain ⟨-, h4⟩ := hname o.v (by rw [he]; rfl)
    unfold slotShade
    rw [hw]
    simp only [List.head?_cons, Nat.add_eq_zero_iff, Nat.one_ne_zero, and_false, if_false, h4, he, Option.bind_some]
    exact (operandShade_iff he i t.v name).1 h2

/-- A word is to be highlighted in one way. -/
theorem shade_unique {src : Bytes} {t : Token} {n n' : Bytes} (h : Shade (tokens src) t n) (h' : Shade (tokens src) t n') : n = n' := by
  rcases shade_slot h with ⟨h1, h2⟩ | ⟨h1, i, h2, h3⟩ <;> rcases shade_slot h' with ⟨g1, g2⟩ | ⟨g1, j, g2, g3⟩
  · rw [h2, g2]
  · rw [h1] at g1; cases g1
  · rw [h1] at g1; cases g1
  · have hp := words_pairwise src t.l
    have hwd := value_width (mem_words.1 (List.mem_of_getElem? h2)).1 h1
    have hij : i = j := by
      rw [List.pairwise_iff_getElem] at hp
      obtain ⟨hi, hi'⟩ := List.getElem?_eq_some_iff.1 h2
      obtain ⟨hj, hj'⟩ := List.getElem?_eq_some_iff.1 g2
      rcases Nat.lt_trichotomy i j with hlt | heq | hgt
      · have := hp i j hi hj hlt
        rw [hi', hj'] at this
        omega
      · exact heq
      · have := hp j i hj hi hgt
        rw [hi', hj'] at this
        omega
    rw [hij, g3] at h3
    exact (Option.some.inj h3).symm

/-- Words and comments have a width. -/
theorem shade_width {src : Bytes} {t : Token} (h : t ∈ tokens src) (hne : t.t ≠ .eol) : t.b < t.e := by
  obtain ⟨err, hl, -⟩ := readTokens_lexes src
  have key : ∀ {l c s ts err}, Lexes l c s ts err → ∀ t ∈ ts, t.t ≠ .eol → t.b < t.e := by
    intro l c s ts err h
    induction h with
    | done => simp
    | blank _ _ _ _ _ _ _ _ ih => exact ih
    | eol l c raw rest ts err hraw h ih =>
      intro t ht hne
      rcases List.mem_cons.1 ht with rfl | ht
      · exact absurd rfl hne
      · exact ih t ht hne
    | comment l c v rest ts err hv hrest h ih =>
      intro t ht hne
      rcases List.mem_cons.1 ht with rfl | ht
      · dsimp only; omega
      · exact ih t ht hne
    | bare l c v rest ts err hn hq hsl hv hrest h ih =>
      intro t ht hne
      rcases List.mem_cons.1 ht with rfl | ht
      · have := List.length_pos_iff.2 hn
        dsimp only; omega
      · exact ih t ht hne
    | quoted l c body rest ts err hb hlast h ih =>
      intro t ht hne
      rcases List.mem_cons.1 ht with rfl | ht
      · dsimp only; omega
      · exact ih t ht hne
    | unterminated => simp
  exact key hl t h hne

/-- **C88** (partial: see `C88_false`.)  The semantic tokens of a text, decoded as the protocol has it, come
in order, and highlight words and comments of the text as they are to be; and all words and comments
that are to be highlighted are, except for operands on lines with an error.  Two tokens do not overlap
unless they are the same. -/
theorem C88_partial (h : Host) (hsort : SortsBy SemanticToken.less h.sort) (ms : List (Choice × Msg)) (u src : Bytes) (a : Result)
    (hlen : src.length < 2 ^ 32) (ha : Answered h ms u src .semanticTokens a) :
    ∃ data xs, a = .semanticTokens data ∧ semDecode 0 0 data = some xs ∧
      xs.Pairwise (fun x y => x.line < y.line ∨ x.line = y.line ∧ (x.index + x.length ≤ y.index ∨ x = y)) ∧
      (∀ x ∈ xs, ∃ t ∈ tokens src, ∃ name, Shade (tokens src) t name ∧ Highlights x t name) ∧
      (∀ t name, Shade (tokens src) t name → (∀ k w i, OperandAt (tokens src) k w i t → ReadsWell h.addrOk src k) →
        ∃ x ∈ xs, Highlights x t name) := by
  obtain ⟨ch, mp, r, hr, hans⟩ := answered ha
  injection hans with hans
  subst hans
  obtain ⟨err, hlex, -⟩ := readTokens_lexes src
  obtain ⟨-, xs, h1, h2, h3⟩ := C09_encode_decode h.sort hsort (semTokens r src) (by
    intro x hx
    obtain ⟨t, ht, name, -, e1, e2, e3, e4, e5, e6⟩ := semTokens_sound hr x hx
    have hb := lexes_bound hlex t ht
    have h9 : x.type.toNat < 9 := (List.getElem?_eq_some_iff.1 e5).1
    have : (2 : Nat) ^ 32 = 4294967296 := by decide
    unfold Fits
    omega)
  refine ⟨_, xs, rfl, h1, h3.imp_of_mem ?_, fun x hx => semTokens_sound hr x (h2.mem_iff.1 hx), fun t name hs hread => ?_⟩
  · intro x y hx hy hxy
    rcases hxy with hxy | ⟨hl, hi⟩
    · exact .inl hxy
    · refine .inr ⟨hl, ?_⟩
      obtain ⟨t, ht, n, hs, e1, e2, e3, e4, e5, e6⟩ := semTokens_sound hr x (h2.mem_iff.1 hx)
      obtain ⟨t', ht', n', hs', g1, g2, g3, g4, g5, g6⟩ := semTokens_sound hr y (h2.mem_iff.1 hy)
      by_cases heq : t = t'
      · right
        subst heq
        obtain rfl := shade_unique hs hs'
        have hty : x.type.toNat = y.type.toNat := by
          have hn : legend.Nodup := by decide
          obtain ⟨hx9, hx'⟩ := List.getElem?_eq_some_iff.1 e5
          obtain ⟨hy9, hy'⟩ := List.getElem?_eq_some_iff.1 g5
          exact (hn.getElem_inj_iff).1 (hx'.trans hy'.symm)
        obtain ⟨xl, xi, xn, xt, xm⟩ := x
        obtain ⟨yl, yi, yn, yt, ym⟩ := y
        simp only [SemanticToken.mk.injEq] at *
        refine ⟨by omega, by omega, by omega, by omega, by omega⟩
      · left
        have hp := (readTokens_lines src).2.2
        have hne : ∀ t n, Shade (tokens src) t n → t.t ≠ .eol := by
          intro t n h
          rcases shade_slot h with ⟨h, -⟩ | ⟨h, -⟩ <;> rw [h] <;> simp
        have hw' := shade_width ht' (hne t' n' hs')
        have hw := shade_width ht (hne t n hs)
        have hor : t.e ≤ t'.b ∨ t'.e ≤ t.b := by
          rw [List.pairwise_iff_getElem] at hp
          obtain ⟨i, hi1, hi2⟩ := List.getElem_of_mem ht
          obtain ⟨j, hj1, hj2⟩ := List.getElem_of_mem ht'
          rcases Nat.lt_trichotomy i j with hlt | rfl | hgt
          · have := hp i j hi1 hj1 hlt
            rw [hi2, hj2] at this
            exact .inl (this (by omega))
          · rw [hi2] at hj2; exact absurd hj2 heq
          · have := hp j i hj1 hi1 hgt
            rw [hi2, hj2] at this
            exact .inr (this (by omega))
        omega
  · obtain ⟨x, hx, hh⟩ := semTokens_complete hr t name hs hread
    exact ⟨x, h2.mem_iff.2 hx, hh⟩

theorem insertSem_perm (a : SemanticToken) (l : List SemanticToken) : (insertSem a l).Perm (a :: l) := by
  induction l with
  | nil => exact .refl _
  | cons b l ih =>
    unfold insertSem
    split
    · exact .refl _
    · exact (ih.cons b).trans (.swap a b l)

theorem insertSem_sorted (a : SemanticToken) (l : List SemanticToken) (h : l.Pairwise (fun a b => SemanticToken.less b a = false)) :
    (insertSem a l).Pairwise (fun a b => SemanticToken.less b a = false) := by
  induction l with
  | nil => simp [insertSem]
  | cons b l ih =>
    rw [List.pairwise_cons] at h
    have less_iff : ∀ x y : SemanticToken, SemanticToken.less x y = false ↔ y.line < x.line ∨ y.line = x.line ∧ y.index ≤ x.index := by
      intro x y
      unfold SemanticToken.less
      split <;> simp <;> omega
    unfold insertSem
    split
    · rename_i hab
      rw [List.pairwise_cons, List.pairwise_cons]
      refine ⟨?_, h⟩
      intro c hc
      rw [less_iff]
      rcases List.mem_cons.1 hc with rfl | hc
      · exact hab
      · have := (less_iff _ _).1 (h.1 c hc)
        omega
    · rename_i hab
      rw [List.pairwise_cons]
      refine ⟨?_, ih h.2⟩
      intro c hc
      rcases List.mem_cons.1 ((insertSem_perm a l).mem_iff.1 hc) with rfl | hc
      · rw [less_iff]; omega
      · exact h.1 c hc

theorem sampleHost_sorts : SortsBy SemanticToken.less sampleHost.sort := by
  intro t
  show (t.foldr insertSem []).Perm t ∧ (t.foldr insertSem []).Pairwise _
  induction t with
  | nil => exact ⟨.refl _, .nil⟩
  | cons a t ih => exact ⟨(insertSem_perm a _).trans (ih.1.cons a), insertSem_sorted a _ ih.2⟩

theorem readsWell_clean {env : Env} {src : Bytes} {k : Nat}
    (h : (process env src).map (fun r => r.diagnostics.all fun d => decide (d.l ≠ k)) = some true) : ReadsWell env.addrOk src k := by
  obtain ⟨r, hr, hd⟩ := Option.map_eq_some_iff.1 h
  refine ⟨env.maps, r, hr, fun d h1 h2 => ?_⟩
  have := (List.all_eq_true.1 hd) d h1
  exact absurd h2 (of_decide_eq_true this)

/-- A text with a pragma, a label, an instruction with two operands and a comment. -/
example : Answered sampleHost (openSession b!"#pragma version 8\nx:\ngtxn 0 Fee // f") b!"u" b!"#pragma version 8\nx:\ngtxn 0 Fee // f"
      .semanticTokens (.semanticTokens [0, 0, 7, 4, 0, 0, 8, 7, 4, 0, 0, 8, 1, 6, 0, 1, 0, 2, 3, 0, 1, 0, 4, 0, 0, 0, 5, 1, 6, 0,
        0, 2, 3, 1, 0, 0, 4, 4, 2, 0]) ∧
    ReadsWell sampleHost.addrOk b!"#pragma version 8\nx:\ngtxn 0 Fee // f" 2 ∧ SortsBy SemanticToken.less sampleHost.sort :=
  ⟨open_answered _ _ _ (by decide +kernel), readsWell_clean (env := sampleEnv) (by decide +kernel), sampleHost_sorts⟩

/-- **C88** fails for the operands of `intcblock` and `pushints`, which are highlighted twice: the protocol
wants tokens that do not overlap. -/
theorem C88_false : Answered sampleHost (openSession b!"intcblock 1") b!"u" b!"intcblock 1" .semanticTokens
      (.semanticTokens [0, 0, 9, 0, 0, 0, 10, 1, 6, 0, 0, 0, 1, 6, 0]) ∧
    semDecode 0 0 [0, 0, 9, 0, 0, 0, 10, 1, 6, 0, 0, 0, 1, 6, 0] = some [⟨0, 0, 9, 0, 0⟩, ⟨0, 10, 1, 6, 0⟩, ⟨0, 10, 1, 6, 0⟩] :=
  ⟨open_answered _ _ _ (by decide +kernel), by decide⟩

end Teal.Props
