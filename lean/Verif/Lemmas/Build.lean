import Verif.Spec.Build
import Verif.Props.Program

/-! Reading programs that were built in Go. -/

namespace Teal
open Spec P Props Build

/-! ## Texts with comment lines -/

/-- `WritesText t ls`: the lines of the text `t` have these words, or a comment. -/
inductive WritesText : Bytes → List (List Bytes × Option Bytes) → Prop
  | nil : WritesText [] []
  | line (raws vs : List Bytes) (t : Bytes) (ls : List (List Bytes × Option Bytes)) (h : WritesAll raws vs) (h' : WritesText t ls) :
      WritesText (lineText raws ++ chLF :: t) ((vs, none) :: ls)
  | remark (c t : Bytes) (ls : List (List Bytes × Option Bytes)) (h : ∀ x ∈ c, ¬ Break x) (h' : WritesText t ls) :
      WritesText (chSlash :: chSlash :: (c ++ chLF :: t)) (([], some c) :: ls)

/-- The tokens of such a text, without their columns. -/
def textKeys (l : Nat) : List (List Bytes × Option Bytes) → List (Nat × Bytes × TokenType)
  | [] => []
  | (vs, c) :: ls => vs.map (fun v => (l, v, .value)) ++ (c.toList.map (fun t => (l, t, .comment)) ++ (l, [chLF], .eol) :: textKeys (l + 1) ls)

theorem lexes_text {t : Bytes} {ls : List (List Bytes × Option Bytes)} (h : WritesText t ls) : ∀ l,
    ∃ us, Lexes l 0 t us none ∧ us.map (fun t => (t.l, t.v, t.t)) = textKeys l ls := by
  induction h with
  | nil => exact fun l => ⟨[], .done _ _, rfl⟩
  | line raws vs t ls hw h' ih =>
    intro l
    obtain ⟨us, h1, h2⟩ := ih (l + 1)
    obtain ⟨us', h3, h4⟩ := lexes_line hw l (chLF :: t) (⟨[chLF], l, 0, 0, .eol⟩ :: us) (.inr ⟨_, _, rfl, .inr rfl⟩) (by
      intro c
      exact ⟨_, .eol l c [chLF] t us none (.inl rfl) h1, rfl⟩) 0
    exact ⟨us', h3, by rw [h4, List.map_cons, h2]; rfl⟩
  | remark c t ls hc h' ih =>
    intro l
    obtain ⟨us, h1, h2⟩ := ih (l + 1)
    refine ⟨_, .comment l 0 c (chLF :: t) _ none hc (.inr ⟨_, _, rfl, .inr rfl⟩) (.eol l _ [chLF] t us none (.inl rfl) h1), ?_⟩
    rw [List.map_cons, List.map_cons, h2]
    rfl

theorem textKeys_ge (ls : List (List Bytes × Option Bytes)) : ∀ l, ∀ x ∈ textKeys l ls, l ≤ x.1 := by
  induction ls with
  | nil => intro l x hx; cases hx
  | cons v ls ih =>
    obtain ⟨vs, c⟩ := v
    intro l x hx
    rcases List.mem_append.1 hx with h | h
    · obtain ⟨w, _, rfl⟩ := List.mem_map.1 h; exact Nat.le_refl _
    rcases List.mem_append.1 h with h | h
    · obtain ⟨w, _, rfl⟩ := List.mem_map.1 h; exact Nat.le_refl _
    · rcases List.mem_cons.1 h with rfl | h
      · exact Nat.le_refl _
      · have := ih _ x h; omega

theorem textKeys_words (ls : List (List Bytes × Option Bytes)) : ∀ l k,
    ((textKeys l ls).filter fun x => decide (x.1 = l + k) && decide (x.2.2 = .value)).map (·.2.1) = ((ls[k]?).map (·.1)).getD [] := by
  induction ls with
  | nil => intro l k; rfl
  | cons v ls ih =>
    obtain ⟨vs, c⟩ := v
    intro l k
    have hc : ∀ j, ((c.toList.map fun t => (l, t, TokenType.comment)).filter fun x => decide (x.1 = j) && decide (x.2.2 = TokenType.value)) = [] := by
      intro j
      rw [List.filter_eq_nil_iff]
      intro x hx
      obtain ⟨w, _, rfl⟩ := List.mem_map.1 hx
      simp
    rw [textKeys, List.filter_append, List.map_append, List.filter_append, hc, List.nil_append]
    cases k with
    | zero =>
      rw [List.filter_eq_self.2, List.filter_eq_nil_iff.2]
      · simp [Function.comp_def]
      · intro x hx
        rcases List.mem_cons.1 hx with rfl | h
        · simp
        · have := textKeys_ge _ _ x h
          simp only [Bool.and_eq_true, decide_eq_true_eq, not_and]
          omega
      · intro x hx
        obtain ⟨w, _, rfl⟩ := List.mem_map.1 hx
        simp
    | succ k =>
      rw [List.filter_eq_nil_iff.2]
      · rw [List.filter_cons_of_neg (by simp), show l + (k + 1) = l + 1 + k by omega, ih]
        rfl
      · intro x hx
        obtain ⟨w, _, rfl⟩ := List.mem_map.1 hx
        simp

theorem textKeys_count (ls : List (List Bytes × Option Bytes)) : ∀ l, ((textKeys l ls).getLast?.map (·.1 + 1)).getD l = l + ls.length := by
  induction ls with
  | nil => intro l; rfl
  | cons v ls ih =>
    obtain ⟨vs, c⟩ := v
    intro l
    have := ih (l + 1)
    rw [textKeys, List.getLast?_append, List.getLast?_append, List.getLast?_cons]
    rw [List.length_cons]
    cases h : (textKeys (l + 1) ls).getLast? with
    | none => rw [h] at this; simp at this ⊢; omega
    | some x => rw [h] at this; simp at this ⊢; omega

/-- The words and the number of lines of such a text. -/
theorem written_text {t : Bytes} {ls : List (List Bytes × Option Bytes)} (h : WritesText t ls) :
    (readTokens t).2 = [] ∧ lineCount (readTokens t).1 = ls.length ∧
    ∀ k, (words (readTokens t).1 k).map Token.v = ((ls[k]?).map (·.1)).getD [] := by
  obtain ⟨us, h1, h2⟩ := lexes_text h 0
  rw [readTokens_of_lexes h1]
  refine ⟨rfl, ?_, ?_⟩
  · have := textKeys_count ls 0
    rw [← h2, List.getLast?_map, Option.map_map, Nat.zero_add] at this
    exact this
  · intro k
    rw [words_keys, h2, ← textKeys_words ls 0 k, Nat.zero_add]

/-! ## The lines of a program -/

namespace Spec

/-- What is printed for a line. -/
def Line.text : Line → Bytes
  | .instr o => o.str
  | .string v => b!"byte \"" ++ v ++ b!"\""
  | .comment t => b!"//" ++ t
  | .blank => []

/-- What is printed for lines. -/
def linesPrinted (ls : List Line) : Bytes := ls.flatMap fun l => l.text ++ [chLF]

theorem linesPrinted_append (a b : List Line) : linesPrinted (a ++ b) = linesPrinted a ++ linesPrinted b := by
  simp [linesPrinted]

mutual
theorem code_text (c : Call) (h1 : c.Blockless) (h2 : c.NoCover) : c.code.text = some (linesPrinted c.lines) := by
  cases c with
  | instr o =>
    cases o <;> simp [Call.code, Call.lines, Code.text, linesPrinted, Line.text, Op.str]
  | list cs =>
    rw [Call.code, Code.text, codes_text cs (by simpa [Call.Blockless] using h1) (by simpa [Call.NoCover] using h2), Call.lines]
  | program cs =>
    rw [Call.code, Code.text, codes_text cs (by simpa [Call.Blockless] using h1) (by simpa [Call.NoCover] using h2), Call.lines,
      linesPrinted_append]
    rfl
  | cover n => simp [Call.NoCover] at h2
  | block => simp [Call.Blockless] at h1
  | plus => simp [Call.Blockless] at h1
  | minus => simp [Call.Blockless] at h1
  | assertEq => simp [Call.Blockless] at h1
  | assertLtEq => simp [Call.Blockless] at h1
  | assertLen => simp [Call.Blockless] at h1
  | assertInRange => simp [Call.Blockless] at h1
  | itxn => simp [Call.Blockless] at h1
  | matchLabels => simp [Call.Blockless] at h1
  | func => simp [Call.Blockless] at h1
  | call => simp [Call.Blockless] at h1
  | _ => simp [Call.code, Call.lines, linesPrinted, Line.text, Op.str, Build.load, Build.store, Build.gtxns, Build.proto, Build.b,
      Build.bz, Build.bnz, Build.callSub, Build.label, Build.match_, Build.switch, Build.txn, Build.txna, Build.itxnField, Build.global,
      Build.int, Build.frameDig, Build.arg, Build.stringBytes, Build.comment, Code.text]
theorem codes_text (cs : List Call) (h1 : BlocklessAll cs) (h2 : NoCoverAll cs) : texts (codes cs) = some (linesPrinted (linesAll cs)) := by
  cases cs with
  | nil => simp [codes, texts, linesAll, linesPrinted]
  | cons c cs =>
    rw [BlocklessAll] at h1
    rw [NoCoverAll] at h2
    rw [codes, texts, code_text c h1.1 h2.1, codes_text cs h1.2 h2.2, linesAll, linesPrinted_append]
    rfl
end

mutual
theorem code_panics (c : Call) (h : ¬ c.Blockless) : c.code.text = none := by
  cases c with
  | list cs => rw [Call.code, Code.text, codes_panic cs (by simpa [Call.Blockless] using h)]
  | program cs => rw [Call.code, Code.text, codes_panic cs (by simpa [Call.Blockless] using h)]; rfl
  | block => simp [Call.code, Build.block, Code.text]
  | plus => simp [Call.code, Build.plus, Build.block, Code.text]
  | minus => simp [Call.code, Build.minus, Build.block, Code.text]
  | assertEq => simp [Call.code, Build.assertEq, Build.block, Code.text]
  | assertLtEq => simp [Call.code, Build.assertLtEq, Build.block, Code.text]
  | assertLen => simp [Call.code, Build.assertLen, Build.assertEq, Build.block, Code.text]
  | assertInRange => simp [Call.code, Build.assertInRange, Build.block, Code.text]
  | itxn => simp [Call.code, Build.itxn, Build.block, Code.text]
  | matchLabels => simp [Call.code, Build.matchLabels, Code.text]
  | func => simp [Call.code, Code.text]
  | call => simp [Call.code, Build.call, Code.text]
  | _ => simp [Call.Blockless] at h
theorem codes_panic (cs : List Call) (h : ¬ BlocklessAll cs) : texts (codes cs) = none := by
  cases cs with
  | nil => simp [BlocklessAll] at h
  | cons c cs =>
    rw [codes, texts]
    by_cases hc : c.Blockless
    · rw [codes_panic cs (fun h' => h (by rw [BlocklessAll]; exact ⟨hc, h'⟩))]
      cases c.code.text <;> rfl
    · rw [code_panics c hc]
end

mutual
theorem code_some (c : Call) (h : c.Blockless) : c.code.text.isSome = true := by
  cases c with
  | list cs => rw [Call.code, Code.text]; exact codes_some cs (by simpa [Call.Blockless] using h)
  | program cs =>
    rw [Call.code, Code.text, Option.isSome_map]; exact codes_some cs (by simpa [Call.Blockless] using h)
  | block => simp [Call.Blockless] at h
  | plus => simp [Call.Blockless] at h
  | minus => simp [Call.Blockless] at h
  | assertEq => simp [Call.Blockless] at h
  | assertLtEq => simp [Call.Blockless] at h
  | assertLen => simp [Call.Blockless] at h
  | assertInRange => simp [Call.Blockless] at h
  | itxn => simp [Call.Blockless] at h
  | matchLabels => simp [Call.Blockless] at h
  | func => simp [Call.Blockless] at h
  | call => simp [Call.Blockless] at h
  | _ => rfl
theorem codes_some (cs : List Call) (h : BlocklessAll cs) : (texts (codes cs)).isSome = true := by
  cases cs with
  | nil => rfl
  | cons c cs =>
    rw [BlocklessAll] at h
    obtain ⟨t, ht⟩ := Option.isSome_iff_exists.1 (code_some c h.1)
    rw [codes, texts, ht]
    dsimp only
    rw [Option.isSome_map]
    exact codes_some cs h.2
end

/-- The version after a line. -/
def Line.next (v : Nat) : Line → Nat
  | .instr (.pragma n) => n
  | _ => v

theorem versionAfter_snoc (ls : List Line) (l : Line) : versionAfter (ls ++ [l]) = l.next (versionAfter ls) := by
  unfold versionAfter
  rw [List.foldl_append]
  rfl

/-- What the words of a line are read to. -/
structure LineRead (addrOk : Bytes → Bool) (ver : Nat) (l : Line) (ws : List Bytes) : Prop where
  ops : opsOf addrOk ver ws = [l.op]
  words : l.op ≠ .empty ∨ ws = []
  sets : ∀ n, SetsVersion ws n ↔ l = .instr (.pragma n)

theorem line_words (addrOk : Bytes → Bool) (ver : Nat) (l : Line) (h : l.Ok addrOk ver) :
    ∃ ws c, LineRead addrOk ver l ws ∧ ∀ t ls, WritesText t ls → WritesText (l.text ++ chLF :: t) ((ws, c) :: ls) := by
  have hnil : ∀ n, ¬ SetsVersion [] n := by rintro n ⟨_, _, h, _⟩; cases h
  cases l with
  | blank =>
    exact ⟨[], none, ⟨rfl, .inr rfl, fun n => ⟨fun h => absurd h (hnil n), by simp⟩⟩, fun t ls ht => .line [] [] t ls .nil ht⟩
  | comment c =>
    refine ⟨[], some c, ⟨rfl, .inr rfl, fun n => ⟨fun h => absurd h (hnil n), by simp⟩⟩, fun t ls ht => ?_⟩
    have := WritesText.remark c t ls h ht
    simpa [Line.text, chSlash] using this
  | string v =>
    have h92 : ∀ {c : UInt8}, c ∈ v → c ≠ 34 ∧ c ≠ 92 := fun hx => h _ hx
    have hu : ∀ s : Bytes, (∀ x ∈ s, x ≠ 34 ∧ x ≠ 92) → Unescaped s s ∧ Denotes s s ∧ ∀ p, NoQuote p s := by
      intro s hs
      induction s with
      | nil => exact ⟨.nil, .nil, fun p => .nil p⟩
      | cons c s ih =>
        obtain ⟨i1, i2, i3⟩ := ih fun x hx => hs x (by simp [hx])
        obtain ⟨c1, c2⟩ := hs c (by simp)
        exact ⟨.keep _ _ _ (fun e => c2 e.1) i1, .plain _ _ _ c2 i2, fun p => .cons _ _ _ (fun e => absurd e c1) (i3 c)⟩
    obtain ⟨u1, u2, u3⟩ := hu v h
    have hlast : lastByte v ≠ chBackslash := by
      unfold lastByte
      cases hg : v.getLast? with
      | none => decide
      | some x => exact (h x (List.mem_of_getLast? hg)).2
    have hi : Instr addrOk ver b!"byte" [chQuote :: (v ++ [chQuote])] (.byte v) := .byte _ v (.string v v u2)
    have hops := ops_of_instr (by decide) hi
    refine ⟨[b!"byte", chQuote :: (v ++ [chQuote])], none, ⟨hops, .inl (by simp [Line.op]), fun n => ⟨?_, by simp⟩⟩, fun t ls ht => ?_⟩
    · rintro ⟨_, _, h, _⟩
      injection h with h
      cases h
    · have := WritesText.line [b!"byte", chQuote :: (v ++ [chQuote])] _ t ls (.cons _ _ _ _
        (.bare _ (by decide) (by decide) (by decide) (by unfold Stop; decide)) (.cons _ _ _ _ (.quoted v v u1 (u3 _) hlast) .nil)) ht
      simpa [Line.text, lineText, chQuote, chSpace] using this
  | instr o =>
    have hre : Reread addrOk ver o := by
      cases o with
      | pragma v => exact reread addrOk ver _ trivial trivial (by rintro w hw; injection hw with hw; subst hw; exact h)
      | _ => exact reread addrOk ver _ h.1 h.2 (by simp)
    obtain ⟨ws, h1, h2, h3⟩ := hre
    have hne : o ≠ .empty ∨ ws = [] := by
      by_cases he : o = .empty
      · right
        subst he
        refine lineText_inj h2 (b := []) (by simp) ?_
        rw [← h1]; rfl
      · exact .inl he
    refine ⟨ws, none, ⟨h3, hne, fun n => ?_⟩, fun t ls ht => ?_⟩
    · have hpr : ∀ v, o = .pragma v → (1 ≤ v ∧ v < 256) ∧ ws = [b!"#pragma", b!"version", formatUint v] := by
        rintro v rfl
        refine ⟨h, lineText_inj h2 ?_ ?_⟩
        · intro w hw
          simp only [List.mem_cons, List.not_mem_nil, or_false] at hw
          rcases hw with rfl | rfl | rfl
          · decide
          · decide
          · exact bare_uint _
        · rw [← h1]; simp [Op.str, lineText, chSpace]
      constructor
      · intro hs
        have hp := (setsVersion_ops h3).1 n hs
        obtain ⟨hb, hws⟩ := hpr _ hp
        rw [hws] at hs
        obtain ⟨s, rest, he1, he2, he3, he4⟩ := hs
        injection he1 with _ he1
        injection he1 with _ he1
        injection he1 with he1 _
        have hr1 := (C11_int_literal s n).2 ⟨he2, he4⟩
        rw [← he1, (C11_print_read (n % 256) (by omega)).2] at hr1
        injection hr1 with hr1
        rw [hp, hr1]
      · intro ho
        injection ho with ho
        obtain ⟨hb, hws⟩ := hpr n ho
        refine ⟨formatUint n, [], hws, ?_, hb.1, by omega⟩
        exact ((C11_int_literal _ n).1 (C11_print_read n (by omega)).2).1
    · have := WritesText.line ws ws t ls (bare_writes h2) ht
      rw [show (Line.instr o).text = lineText ws from h1]
      exact this

/-- The text of a program. -/
theorem lines_words (addrOk : Bytes → Bool) (ls pre : List Line)
    (h : ∀ (k : Nat) (l : Line), ls[k]? = some l → l.Ok addrOk (versionAfter (pre ++ ls.take k))) :
    ∃ es, WritesText (linesPrinted ls) es ∧ es.length = ls.length ∧
      ∀ (k : Nat) (l : Line), ls[k]? = some l → ∃ ws c, es[k]? = some (ws, c) ∧ LineRead addrOk (versionAfter (pre ++ ls.take k)) l ws := by
  induction ls generalizing pre with
  | nil => exact ⟨[], .nil, rfl, by simp⟩
  | cons l ls ih =>
    obtain ⟨es, h1, h2, h3⟩ := ih (pre ++ [l]) (fun k x hx => by
      have := h (k + 1) x (by simpa using hx)
      simpa using this)
    obtain ⟨ws, c, h4, h5⟩ := line_words addrOk (versionAfter pre) l (by simpa using h 0 l rfl)
    refine ⟨(ws, c) :: es, ?_, by simp [h2], ?_⟩
    · have := h5 _ _ h1
      show WritesText (l.text ++ [chLF] ++ linesPrinted ls) _
      simpa using this
    · intro k x hx
      cases k with
      | zero =>
        simp only [List.getElem?_cons_zero, Option.some.injEq] at hx
        subst hx
        exact ⟨ws, c, rfl, by simpa using h4⟩
      | succ k =>
        obtain ⟨ws', c', h6, h7⟩ := h3 k x (by simpa using hx)
        exact ⟨ws', c', by simpa using h6, by simpa using h7⟩

/-- Printed, the lines of a program are read to what they stand for. -/
theorem lines_read (env : Env) (ls : List Line)
    (h : ∀ (k : Nat) (l : Line), ls[k]? = some l → l.Ok env.addrOk (versionAfter (ls.take k))) :
    ∃ r, process env (linesPrinted ls) = some r ∧ r.listing = ls.map Line.op ∧ r.version = versionAfter ls ∧
      (readTokens (linesPrinted ls)).2 = [] ∧ ∀ d ∈ r.diagnostics, ∀ why, d.kind ≠ .parse why := by
  obtain ⟨es, h1, h2, h3⟩ := Spec.lines_words env.addrOk ls [] (by simpa using h)
  obtain ⟨w1, w2, w3⟩ := written_text h1
  have hw : ∀ (k : Nat) (l : Line), ls[k]? = some l →
      LineRead env.addrOk (versionAfter (ls.take k)) l ((words (tokens (linesPrinted ls)) k).map Token.v) := by
    intro k l hk
    obtain ⟨ws, c, h4, h5⟩ := h3 k l hk
    show LineRead _ _ _ ((words (readTokens (linesPrinted ls)).1 k).map Token.v)
    rw [w3 k, h4]
    simpa using h5
  have hver : ∀ k, k ≤ ls.length → ∀ v, VersionAt (tokens (linesPrinted ls)) k v → v = versionAfter (ls.take k) := by
    intro k
    induction k with
    | zero => intro _ v hv; cases hv; rfl
    | succ k ih =>
      intro hk v hv
      have hg : ls[k]? = some ls[k] := List.getElem?_eq_getElem hk
      have hl := hw k _ hg
      rw [List.take_add_one, hg, Option.toList_some, versionAfter_snoc]
      cases hv with
      | set _ _ hs => rw [(hl.sets v).1 hs]; rfl
      | keep _ _ hv hn =>
        rw [ih (by omega) v hv]
        unfold Line.next
        split
        · rename_i n hn'
          exact absurd ((hl.sets n).2 hn') (hn n)
        · rfl
  have hop : ∀ (k : Nat) (o : Op), (ls.map Line.op)[k]? = some o → ∃ l, ls[k]? = some l ∧ l.op = o := by
    intro k o ho
    rw [List.getElem?_map] at ho
    simpa using ho
  obtain ⟨r, r1, r2, -, r4, r5⟩ := program_of_lines env (linesPrinted ls) (ls.map Line.op)
    (by rw [List.length_map, ← h2]; exact w2) (by
      intro k ver o ho hv
      obtain ⟨l, hl, rfl⟩ := hop k o ho
      rw [hver k (Nat.le_of_lt (List.getElem?_eq_some_iff.1 hl).1) ver hv]
      exact (hw k l hl).ops)
  refine ⟨r, r1, r2, ?_, w1, r5 ?_⟩
  · rw [List.length_map] at r4
    have := hver _ (Nat.le_refl _) _ r4
    rwa [List.take_length] at this
  · intro k o ho
    obtain ⟨l, hl, rfl⟩ := hop k o ho
    rcases (hw k l hl).words with h | h
    · exact .inl h
    · exact .inr (List.map_eq_nil_iff.1 h)

end Spec
end Teal
