import Verif.Lemmas.Snippet

/-!
# C115: what the snippets insert
-/

namespace Teal.Props
open Teal Teal.Spec Teal.Wire Teal.WireSpec Teal.JsonSpec Teal.Lsp

theorem bare_colon {n : Bytes} (h : Bare n) : Bare (n ++ [58]) := by
  obtain ⟨h1, h2, h3, h4⟩ := h
  refine ⟨by simp, ?_, ?_, ?_⟩
  · cases n with
    | nil => exact absurd rfl h1
    | cons c n => exact h2
  · cases n with
    | nil => exact absurd rfl h1
    | cons c n =>
      cases n with
      | nil =>
        show [c, 58] ≠ _
        intro h
        injection h with _ h
        exact absurd h (by decide)
      | cons d n => exact h3
  · intro x hx
    rcases List.mem_append.1 hx with h | h
    · exact h4 x h
    · obtain rfl := List.mem_singleton.1 h
      decide

theorem writes_all : ∀ {ws : List Bytes}, (∀ w ∈ ws, Bare w) → WritesAll ws ws
  | [], _ => .nil
  | w :: ws, h => .cons _ _ _ _ (h w (by simp)).writes (writes_all fun x hx => h x (by simp [hx]))

/-- Lines of plain words, each ended by `e`. -/
theorem laid_lines {e : Bytes} (he : e = [chLF] ∨ e = [chCR, chLF]) : ∀ {ls : List (Bytes × List Bytes)},
    (∀ l ∈ ls, (∀ c ∈ l.1, Blank c) ∧ ∀ w ∈ l.2, Bare w) →
    LaidAll (ls.map fun l => ⟨l.1, l.2, e⟩) (ls.map (·.2))
  | [], _ => .nil
  | l :: ls, h => .cons ⟨(h l (by simp)).1, writes_all (h l (by simp)).2, he⟩ (laid_lines he fun x hx => h x (by simp [hx]))

def labelName : Op → Option Bytes
  | .label n => some n
  | _ => none

theorem labels_unique {os : List Op} (h : (os.filterMap labelName).Nodup) :
    ∀ n i j, DefinedAt os n i → DefinedAt os n j → i = j := by
  induction os with
  | nil => intro n i j hi; cases hi
  | cons o os ih =>
    have hos : (os.filterMap labelName).Nodup := by
      rw [List.filterMap_cons] at h
      split at h
      · exact h
      · exact (List.nodup_cons.1 h).2
    have hno : ∀ n i, o = .label n → DefinedAt os n i → False := by
      rintro n i rfl hi
      rw [List.filterMap_cons] at h
      exact (List.nodup_cons.1 h).1 (List.mem_filterMap.2 ⟨_, List.mem_of_getElem? hi, rfl⟩)
    intro n i j hi hj
    cases i with
    | zero =>
      cases j with
      | zero => rfl
      | succ j => exact (hno n j (Option.some.inj hi) hj).elim
    | succ i =>
      cases j with
      | zero => exact (hno n i (Option.some.inj hj) hi).elim
      | succ j => rw [ih hos n i j hi hj]

theorem no_colon_name : ∀ d ∈ docOps, d.name.getLast? ≠ some chColon := by decide +kernel

theorem colon_avail {n w : Bytes} (h : [n ++ [58]].head? = some w) {d : DocOp} (hd : d ∈ docOps) (hn : d.name = w) : False := by
  cases h
  exact no_colon_name d hd (by rw [hn]; simp [chColon])

theorem colon_tidy (v : Nat) (n : Bytes) : TidyLine v [n ++ [58]] := by
  unfold TidyLine
  dsimp only
  rw [if_pos (by simp [chColon])]

theorem colon_pragma (n : Bytes) : [n ++ [58]].head? ≠ some b!"#pragma" := by
  intro h
  have := congrArg List.getLast? (Option.some.inj h)
  simp at this

theorem lead_avail {w : Bytes} {v m : Nat} (hv : m ≤ v) (h : ∀ d ∈ docOps, d.name = w → ∀ sig, ∃ k, d.since sig = some k ∧ k ≤ m) :
    ∀ x, some w = some x → ∀ d ∈ docOps, d.name = x → ∀ sig, ∃ k, d.since sig = some k ∧ k ≤ v := by
  rintro x rfl' d hd hn sig
  cases rfl'
  obtain ⟨k, h1, h2⟩ := h d hd hn sig
  exact ⟨k, h1, by omega⟩

/-- Four opcodes that are there in both modes. -/
theorem snippet_since : ∀ w ∈ [b!"txn", b!"switch", b!"b", b!"proto", b!"retsub"], ∀ d ∈ docOps, d.name = w → ∀ sig,
    ∃ k, d.since sig = some k ∧ k ≤ 8 := by
  have h : ∀ w ∈ [b!"txn", b!"switch", b!"b", b!"proto", b!"retsub"], ∀ d ∈ docOps, d.name = w → ∀ sig, (d.since sig).any (· ≤ 8) = true := by
    decide +kernel
  intro w hw d hd hn sig
  have := h w hw d hd hn sig
  cases hs : d.since sig with
  | none => rw [hs] at this; cases this
  | some k => rw [hs] at this; exact ⟨k, rfl, by simpa using this⟩

theorem snippet_out (t : Texts) {name : Bytes} (h1 : (snippetTexts name).1 ≠ []) (h2 : (snippetTexts name).2 ≠ []) :
    completionOut t (.snippet name) = .obj [(b!"label", .str name), (b!"kind", num 15), (b!"detail", .str (snippetTexts name).1),
      (b!"insertText", .str (snippetTexts name).2), (b!"insertTextFormat", num 2)] := by
  unfold completionOut nonempty
  dsimp only
  rw [if_neg h1, if_neg h2]
  rfl

theorem snippet_inserts (t : Texts) {name : Bytes} {out : (Nat → Bytes) → Bytes} (h1 : (snippetTexts name).1 ≠ [])
    (h2 : (snippetTexts name).2 ≠ []) (h : ∀ fill, Expands fill (snippetTexts name).2 (out fill)) :
    Inserts out (completionOut t (.snippet name)) := by
  rw [snippet_out t h1 h2]
  exact ⟨_, rfl, lacks_of (by decide) rfl, .inr (.inl ⟨_, has_find (by decide) rfl rfl, has_find (by decide) rfl (num_integer 2), h⟩)⟩

theorem decimal_bare {n : Nat} {s : Bytes} (h : DecimalOf n s) : Bare s := by
  rw [decimal_spelling h (formatUint_decimal n)]
  exact bare_uint n

theorem nodup_other {α : Type} {a b : α} {l : List α} (h : (a :: b :: l).Nodup) : a ≠ b := fun e => by
  simp [e] at h

/-- The lines of the switch. -/
def socLines (a b c d e f z : Bytes) : List (List Bytes) :=
  [[b!"txn", b!"OnCompletion"], [b!"switch", a, b, c, d, e, f], [a ++ [58]], [b!"b", z], [], [b ++ [58]], [b!"b", z], [], [c ++ [58]],
   [b!"b", z], [], [d ++ [58]], [b!"b", z], [], [e ++ [58]], [b!"b", z], [], [f ++ [58]], [], [z ++ [58]]]

theorem tidy_op {v : Nat} {w : Bytes} {ws : List Bytes} (h1 : w ∈ [b!"switch", b!"b", b!"proto", b!"retsub"]) : TidyLine v (w :: ws) := by
  have h : ∀ w ∈ [b!"switch", b!"b", b!"proto", b!"retsub"], w.getLast? ≠ some chColon ∧ w ≠ b!"#pragma" ∧ w ≠ b!"args" ∧
    w ≠ b!"gitxna" ∧ w ∉ arrayOps ∧ w ∉ [b!"txn", b!"gtxns"] ∧ w ≠ b!"gtxn" ∧ w ∉ byteConstOps := by decide
  obtain ⟨a, b, c, d, e, f, g, i⟩ := h w h1
  unfold TidyLine
  dsimp only
  rw [if_neg a, if_neg b]
  exact ⟨c, d, fun h => absurd h e, fun h => h.elim (fun h => absurd h.1 f) (fun h => absurd h.1 g), fun h => absurd h i⟩

theorem tidy_txn (v : Nat) : TidyLine v [b!"txn", b!"OnCompletion"] :=
  ⟨by decide, by decide, fun h => absurd h (by decide), fun h => absurd h (by decide), fun h => absurd h (by decide)⟩

theorem soc_accepted (env : Env) {a b c d e f z s : Bytes} {v : Nat} (ha : Bare a) (hb : Bare b) (hc : Bare c) (hd : Bare d)
    (he : Bare e) (hf : Bare f) (hz : Bare z) (hn : [a, b, c, d, e, f, z].Nodup) (hv : 8 ≤ v) (hv' : v < 256) (hs : DecimalOf v s) {src : Bytes}
    (ht : src = ((([b!"#pragma", b!"version", s] :: socLines a b c d e f z).map fun ws => (([] : Bytes), ws)).map
      fun l => (⟨l.1, l.2, [chLF]⟩ : Laid)).flatMap Laid.text) :
    ∃ r, process env src = some r ∧ NoErrors r ∧ r.listing = .pragma v :: dispatch [a, b, c, d, e, f] z := by
  have w1 : Bare b!"#pragma" ∧ Bare b!"version" ∧ Bare b!"txn" ∧ Bare b!"OnCompletion" ∧ Bare b!"switch" ∧ Bare b!"b" := by decide
  obtain ⟨w1, w2, w3, w4, w5, w6⟩ := w1
  have w7 := decimal_bare hs
  have hall : ∀ l ∈ ([b!"#pragma", b!"version", s] :: socLines a b c d e f z), ∀ w ∈ l, Bare w := by
    simp only [socLines, List.forall_mem_cons, List.not_mem_nil, false_imp_iff, implies_true, and_true]
    have ha' := bare_colon ha
    have hb' := bare_colon hb
    have hc' := bare_colon hc
    have hd' := bare_colon hd
    have he' := bare_colon he
    have hf' := bare_colon hf
    have hz' := bare_colon hz
    simp only [*, and_true]
  obtain ⟨h1, h2, h3⟩ := laid (laid_lines (e := [chLF]) (.inl rfl)
      (ls := ([b!"#pragma", b!"version", s] :: socLines a b c d e f z).map fun ws => (([] : Bytes), ws)) (by
    intro l hl
    obtain ⟨ws, hws, rfl⟩ := List.mem_map.1 hl
    exact ⟨fun x hx => (by cases hx), hall ws hws⟩))
  rw [← ht] at h1 h2 h3
  have hmap : ((([b!"#pragma", b!"version", s] :: socLines a b c d e f z).map fun ws => (([] : Bytes), ws)).map (·.2)) =
      [b!"#pragma", b!"version", s] :: socLines a b c d e f z := by
    rw [List.map_map]; exact List.map_id _
  rw [hmap] at h2 h3
  have hne : ∀ {n : Bytes}, Bare n → n ≠ [] := fun h => h.1
  have hun : ∀ n i j, DefinedAt (dispatch [a, b, c, d, e, f] z) n i → DefinedAt (dispatch [a, b, c, d, e, f] z) n j → i = j := by
    apply labels_unique
    exact hn
  refine accepted h1 h2 h3 (intLiteral_decimal hs) (by omega) hv' ?_ ?_ ?_ ?_ ?_ hun ?_ ?_
  · unfold socLines dispatch
    refine .instr _ _ _ _ (by decide) (.txn b!"txn" b!"OnCompletion" .txn 25 (by decide) ?_) _ _ ?_
    · have h : (txnFields[25]?.any fun d => d.name = b!"OnCompletion" ∧ d.since ≤ 2) = true := by decide +kernel
      cases hd25 : txnFields[25]? with
      | none => rw [hd25] at h; cases h
      | some x =>
        rw [hd25] at h
        have h : x.name = b!"OnCompletion" ∧ x.since ≤ 2 := by simpa using h
        exact .inl ⟨x, hd25, h.1, by omega⟩
    refine .instr _ _ _ _ (by decide) (.switch _) _ _ ?_
    iterate 5
      refine .label _ _ (hne ‹_›) _ _ ?_
      refine .instr _ _ _ _ (by decide) (.branch b!"b" z .b (by decide)) _ _ ?_
      refine .blank _ _ _ ?_
    refine .label _ _ (hne ‹_›) _ _ (.blank _ _ _ (.label _ _ (hne hz) _ _ (.nil _)))
  · intro l hl
    simp only [socLines, List.mem_cons, List.not_mem_nil, or_false] at hl
    rcases hl with rfl | rfl | rfl | rfl | rfl | rfl | rfl | rfl | rfl | rfl | rfl | rfl | rfl | rfl | rfl | rfl | rfl | rfl | rfl | rfl <;>
      first | exact colon_pragma _ | simp
  · have k1 := lead_avail hv (snippet_since b!"txn" (by decide))
    have k2 := lead_avail hv (snippet_since b!"switch" (by decide))
    have k3 := lead_avail hv (snippet_since b!"b" (by decide))
    have k4 : ∀ n w : Bytes, [n ++ [58]].head? = some w → ∀ d ∈ docOps, d.name = w → ∀ sig, ∃ m, d.since sig = some m ∧ m ≤ v :=
      fun n w h d hd hn => (colon_avail h hd hn).elim
    have k5 : ∀ w : Bytes, ([] : List Bytes).head? = some w → ∀ d ∈ docOps, d.name = w → ∀ sig, ∃ m, d.since sig = some m ∧ m ≤ v :=
      fun w h => by cases h
    intro l hl
    simp only [socLines, List.mem_cons, List.not_mem_nil, or_false] at hl
    rcases hl with rfl | rfl | rfl | rfl | rfl | rfl | rfl | rfl | rfl | rfl | rfl | rfl | rfl | rfl | rfl | rfl | rfl | rfl | rfl | rfl <;>
      first | exact k1 | exact k2 | exact k3 | exact k4 _ | exact k5
  · intro l hl
    simp only [socLines, List.mem_cons, List.not_mem_nil, or_false] at hl
    rcases hl with rfl | rfl | rfl | rfl | rfl | rfl | rfl | rfl | rfl | rfl | rfl | rfl | rfl | rfl | rfl | rfl | rfl | rfl | rfl | rfl <;>
      first | exact tidy_txn v | exact colon_tidy v _ | exact tidy_op (by decide) | exact trivial
  · intro o ho n hr
    cases hr with
    | branch k n =>
      simp [dispatch] at ho
      simp [dispatch, ho]
    | switch ns n h =>
      simp [dispatch] at ho
      subst ho
      simp at h
      simp [dispatch]
      tauto
    | match_ ns n h => simp [dispatch] at ho
  · intro o ho v' e
    subst e
    simp [dispatch] at ho
  · intro k j n hk hj
    have hz : n = z := by
      have := List.mem_of_getElem? hk
      simp [dispatch] at this
      exact this
    subst hz
    have hj' := hun n j 19 hj (by simp [DefinedAt, Spec.At, dispatch])
    have hl : k < 20 := by
      have := (List.getElem?_eq_some_iff.1 hk).1
      simpa [dispatch] using this
    have h19 : k ≠ 19 := by
      rintro rfl
      simp [Spec.At, dispatch] at hk
    omega

/-- Accepting `soc` and naming the labels gives, in any version that has `switch`, the switch on `OnCompletion`. -/
theorem C115_soc_partial (t : Texts) : ∃ out, Inserts out (completionOut t (.snippet b!"soc")) ∧
    ∀ (fill : Nat → Bytes) (env : Env) (v : Nat) (s : Bytes), (∀ i ∈ [1, 2, 3, 4, 5, 6, 8], Bare (fill i)) →
      ([1, 2, 3, 4, 5, 6, 8].map fill).Nodup → fill 9 = [] → 8 ≤ v → v < 256 → DecimalOf v s →
      ∃ r, process env (b!"#pragma version " ++ s ++ b!"\n" ++ out fill) = some r ∧ NoErrors r ∧
        r.listing = .pragma v :: dispatch ([1, 2, 3, 4, 5, 6].map fill) (fill 8) := by
  refine ⟨_, snippet_inserts t (by decide) (by decide +kernel) (fun fill => soc_expands fill), ?_⟩
  intro fill env v s hb hd h9 hv hv' hs
  refine soc_accepted env (hb 1 (by decide)) (hb 2 (by decide)) (hb 3 (by decide)) (hb 4 (by decide)) (hb 5 (by decide)) (hb 6 (by decide))
    (hb 8 (by decide)) hd hv hv' hs ?_
  rw [h9]
  simp [socPieces, socLines, Piece.out, Laid.text, lineText, chLF, chSpace]

/-- The labels can be named. -/
example : let fill : Nat → Bytes := fun i => if i = 9 then [] else b!"l" ++ formatUint i
    (∀ i ∈ [1, 2, 3, 4, 5, 6, 8], Bare (fill i)) ∧ ([1, 2, 3, 4, 5, 6, 8].map fill).Nodup ∧ fill 9 = [] ∧ DecimalOf 8 b!"8" := by
  refine ⟨by decide +kernel, by decide +kernel, rfl, ?_⟩
  have := formatUint_decimal 8
  rwa [show formatUint 8 = b!"8" by decide +kernel] at this

/-- For the label of each value of `OnCompletion`, `soc` proposes its name in lower case. -/
theorem C115_named (t : Texts) : ∃ s, IsObj (fun ms => Has ms b!"insertText" (IsStr s)) (completionOut t (.snippet b!"soc")) ∧
    ∀ i n, (i, n) ∈ onCompletions → Proposes s (i + 1) (n.map lower) := by
  refine ⟨socText, ?_, ?_⟩
  · rw [snippet_out t (by decide) (by decide +kernel)]
    exact ⟨_, rfl, has_find (by decide) rfl rfl⟩
  · rw [soc_pieces.1]
    have hp : ∀ x ∈ onCompletions, ∃ pre ∈ (List.range 12).map (fun k => k), 
        (socPieces[pre]?.any fun p => p.src = placeholder (x.1 + 1) (x.2.map lower)) = true ∧ ∀ c ∈ x.2.map lower, c ≠ 36 ∧ c ≠ 92 ∧ c ≠ 125 := by
      decide +kernel
    intro i n hm
    obtain ⟨k, -, h1, h2⟩ := hp _ hm
    cases hk : socPieces[k]? with
    | none => rw [hk] at h1; cases h1
    | some p =>
      rw [hk] at h1
      have h1 : p.src = placeholder (i + 1) (n.map lower) := by simpa using h1
      have hspl : socPieces = socPieces.take k ++ p :: socPieces.drop (k + 1) := by
        have hlt := (List.getElem?_eq_some_iff.1 hk).1
        rw [List.getElem?_eq_getElem hlt] at hk
        rw [← Option.some.inj hk, List.getElem_cons_drop, List.take_append_drop]
      refine ⟨(socPieces.take k).flatMap Piece.src, formatUint (i + 1), (socPieces.drop (k + 1)).flatMap Piece.src ++ b!"$9", ?_, formatUint_decimal _, h2⟩
      rw [hspl, List.flatMap_append, List.flatMap_cons, h1]
      simp [placeholder, ← hspl]

/-- Accepting `func`, naming the subroutine and saying how many arguments and results it has gives, in any version
that has `proto`, a subroutine without a body. -/
theorem C115_func_partial (t : Texts) : ∃ out, Inserts out (completionOut t (.snippet b!"func")) ∧
    ∀ (fill : Nat → Bytes) (env : Env) (v a b : Nat) (s : Bytes), Bare (fill 1) → IsByte (fill 2) a → IsByte (fill 3) b → fill 4 = [] →
      8 ≤ v → v < 256 → DecimalOf v s →
      ∃ r, process env (b!"#pragma version " ++ s ++ b!"\n" ++ out fill) = some r ∧ NoErrors r ∧
        r.listing = [.pragma v, .label (fill 1), .empty, .u8u8 .proto a b, .empty, .plain .retsub] := by
  refine ⟨_, snippet_inserts t (by decide) (by decide +kernel) (fun fill => func_expands fill), ?_⟩
  intro fill env v a b s hb ha hb' h4 hv hv' hs
  have hbyte : ∀ {w n}, IsByte w n → Bare w := by
    rintro w n ⟨h0, ds, h1, -⟩
    exact bare_noslash h0 (digits_chars h1)
  let ls : List (List Bytes) := [[fill 1 ++ [58]], [], [b!"proto", fill 2, fill 3], [], [b!"retsub"]]
  let xs : List Laid := [⟨[], [b!"#pragma", b!"version", s], [chLF]⟩, ⟨[], [fill 1 ++ [58]], [chCR, chLF]⟩, ⟨[], [], [chCR, chLF]⟩,
    ⟨[9], [b!"proto", fill 2, fill 3], [chCR, chLF]⟩, ⟨[9], [], [chCR, chLF]⟩, ⟨[9], [b!"retsub"], [chCR, chLF]⟩]
  have ht : b!"#pragma version " ++ s ++ b!"\n" ++ (funcPieces.flatMap (Piece.out fill) ++ (fill 4 ++ b!"\r\n\tretsub\r\n")) =
      xs.flatMap Laid.text := by
    rw [h4]
    simp [xs, funcPieces, Piece.out, Laid.text, lineText, chLF, chCR, chSpace]
  have w1 : Bare b!"#pragma" ∧ Bare b!"version" ∧ Bare b!"proto" ∧ Bare b!"retsub" := by decide
  obtain ⟨w1, w2, w3, w4⟩ := w1
  have one : ∀ {w : Bytes}, Bare w → WritesAll [w] [w] := fun h => writes_all (by simpa using h)
  have tab : ∀ c ∈ ([9] : Bytes), Blank c := by decide
  have no : ∀ c ∈ ([] : Bytes), Blank c := by simp
  obtain ⟨h1, h2, h3⟩ := laid (xs := xs) (vss := [b!"#pragma", b!"version", s] :: ls)
    (.cons ⟨no, writes_all (by simp [w1, w2, decimal_bare hs]), .inl rfl⟩ (.cons ⟨no, one (bare_colon hb), .inr rfl⟩
      (.cons ⟨no, .nil, .inr rfl⟩ (.cons ⟨tab, writes_all (by simp [w3, hbyte ha, hbyte hb']), .inr rfl⟩
        (.cons ⟨tab, .nil, .inr rfl⟩ (.cons ⟨tab, one w4, .inr rfl⟩ .nil))))))
  rw [← ht] at h1 h2 h3
  refine accepted (os := [.label (fill 1), .empty, .u8u8 .proto a b, .empty, .plain .retsub]) h1 h2 h3 (intLiteral_decimal hs) (by omega) hv'
    ?_ ?_ ?_ ?_ ?_ ?_ ?_ ?_
  · refine .label _ _ hb.1 _ _ (.blank _ _ _ (.instr _ _ _ _ (by decide) ?_ _ _ (.blank _ _ _ (.instr _ _ _ _ (by decide) ?_ _ _ (.nil _)))))
    · exact .byteByteOp b!"proto" _ _ .proto a b (by decide) ha hb'
    · exact .plain b!"retsub" .retsub (by decide +kernel)
  · intro l hl
    simp only [ls, List.mem_cons, List.not_mem_nil, or_false] at hl
    rcases hl with rfl | rfl | rfl | rfl | rfl <;> first | exact colon_pragma _ | simp
  · have k1 := lead_avail hv (snippet_since b!"proto" (by decide))
    have k2 := lead_avail hv (snippet_since b!"retsub" (by decide))
    intro l hl
    simp only [ls, List.mem_cons, List.not_mem_nil, or_false] at hl
    rcases hl with rfl | rfl | rfl | rfl | rfl
    · exact fun w h d hd hn => (colon_avail h hd hn).elim
    · intro w h; cases h
    · exact k1
    · intro w h; cases h
    · exact k2
  · intro l hl
    simp only [ls, List.mem_cons, List.not_mem_nil, or_false] at hl
    rcases hl with rfl | rfl | rfl | rfl | rfl <;> first | exact colon_tidy v _ | exact tidy_op (by decide) | exact trivial
  · intro o ho n hr
    cases hr with
    | branch k n => simp at ho
    | switch ns n h => simp at ho
    | match_ ns n h => simp at ho
  · apply labels_unique
    exact List.nodup_cons.2 ⟨by simp [labelName], List.nodup_nil⟩
  · intro o ho v' e
    subst e
    simp at ho
  · intro k j n hk _
    have := List.mem_of_getElem? hk
    simp at this

/-- A name and two numbers. -/
example : Bare b!"sub" ∧ IsByte b!"2" 2 ∧ IsByte b!"1" 1 ∧ DecimalOf 8 b!"8" := by
  refine ⟨by decide, ⟨by decide, [2], ⟨by decide, by decide⟩, by decide, by decide⟩, ⟨by decide, [1], ⟨by decide, by decide⟩, by decide, by decide⟩, ?_⟩
  have := formatUint_decimal 8
  rwa [show formatUint 8 = b!"8" by decide +kernel] at this

/-- Names and numbers for the tab stops. -/
def sampleFill (i : Nat) : Bytes := if i = 4 ∨ i = 9 then [] else formatUint i

/-- Both are offered in every version, although before version 8 what they insert is in error. -/
theorem C115_false : ∃ r cs, process sampleEnv b!"#pragma version 7\n" = some r ∧ completions sampleChoice r ⟨1, 0⟩ = some cs ∧
    ∀ name ∈ [b!"soc", b!"func"], .snippet name ∈ cs ∧ ∀ (t : Texts) (out : (Nat → Bytes) → Bytes),
      Inserts out (completionOut t (.snippet name)) → ∃ r', process sampleEnv (b!"#pragma version 7\n" ++ out sampleFill) = some r' ∧ ¬ NoErrors r' := by
  have h0 : (process sampleEnv b!"#pragma version 7\n").any (fun r => (completions sampleChoice r ⟨1, 0⟩).any
    fun cs => [b!"soc", b!"func"].all fun name => decide (.snippet name ∈ cs)) = true := by decide +kernel
  cases hr : process sampleEnv b!"#pragma version 7\n" with
  | none => rw [hr] at h0; cases h0
  | some r =>
    rw [hr] at h0
    replace h0 : (completions sampleChoice r ⟨1, 0⟩).any (fun cs => [b!"soc", b!"func"].all fun name => decide (.snippet name ∈ cs)) = true := h0
    cases hc : completions sampleChoice r ⟨1, 0⟩ with
    | none => rw [hc] at h0; cases h0
    | some cs =>
      rw [hc] at h0
      replace h0 : ([b!"soc", b!"func"].all fun name => decide (.snippet name ∈ cs)) = true := h0
      refine ⟨r, cs, rfl, hc, fun name hn => ⟨by simpa using List.all_eq_true.1 h0 name hn, fun t out ho => ?_⟩⟩
      have fails : ∀ {src : Bytes}, ((process sampleEnv src).any fun r => r.diagnostics.any fun d => decide (severity d.kind = .err)) = true →
          ∃ r', process sampleEnv src = some r' ∧ ¬ NoErrors r' := by
        intro src h
        cases hp : process sampleEnv src with
        | none => rw [hp] at h; cases h
        | some r' =>
          rw [hp] at h
          replace h : (r'.diagnostics.any fun d => decide (severity d.kind = .err)) = true := h
          obtain ⟨d, hd, he⟩ := List.any_eq_true.1 h
          exact ⟨r', rfl, fun hno => hno d hd (by simpa using he)⟩
      rcases List.mem_cons.1 hn with rfl | hn
      · rw [C114_unique ho (snippet_inserts t (by decide) (by decide +kernel) (fun fill => soc_expands fill))]
        exact fails (by decide +kernel)
      · obtain rfl := List.mem_singleton.1 hn
        rw [C114_unique ho (snippet_inserts t (by decide) (by decide +kernel) (fun fill => func_expands fill))]
        exact fails (by decide +kernel)

end Teal.Props
