import Verif.Lemmas.Build
import Verif.Props.Compile

/-!
# C93: programs built in Go
-/

namespace Teal.Props
open Teal.Spec Teal.Build

/-- **C93** (partial: without blocks, which panic, see `C93_blocks_panic`, without `Cover`, which
prints `uncover`, and for lines that can be written, see `C93_false`.)  A program built with the
functions of the package is printed as a text that is read, without errors, to the instructions that
were asked for, in this order, and to the version of its last pragma. -/
theorem C93_partial (env : Env) (cs : List Call) (hb : BlocklessAll cs) (hc : NoCoverAll cs)
    (hl : ∀ (k : Nat) (l : Line), (linesAll cs)[k]? = some l → l.Ok env.addrOk (versionAfter ((linesAll cs).take k))) :
    ∃ text r, programString (codes cs) = some text ∧ process env text = some r ∧ r.listing = (linesAll cs).map Line.op ∧
      r.version = versionAfter (linesAll cs) ∧ (readTokens text).2 = [] ∧ ∀ d ∈ r.diagnostics, ∀ why, d.kind ≠ .parse why := by
  obtain ⟨r, h1, h2, h3, h4, h5⟩ := lines_read env (linesAll cs) hl
  refine ⟨_, r, ?_, h1, h2, h3, h4, h5⟩
  rw [programString, texts, Code.text, codes_text cs hb hc]
  simp [texts]

/-- **C93**: printing panics exactly when there is a block or function somewhere in the program. -/
theorem C93_blocks_panic (cs : List Call) : programString (codes cs) = none ↔ ¬ BlocklessAll cs := by
  constructor
  · intro h hb
    obtain ⟨t, ht⟩ := Option.isSome_iff_exists.1 (codes_some cs hb)
    rw [programString, texts, Code.text, ht] at h
    simp [texts] at h
  · intro h
    rw [programString, texts, Code.text, codes_panic cs h]

/-- The example of the README: `l1 := teal.Label("l1"); teal.Program{l1, teal.B(l1)}`. -/
example : programString (codes [.label b!"l1", .b b!"l1"]) = some b!"l1:\nb l1\n" := by decide +kernel

/-- A program with several kinds of calls meets the hypotheses of `C93_partial`. -/
example : ∃ cs : List Call, cs = [.instr (.pragma 8), .comment b!" start", .label b!"l1", .list [.txn 0, .stringBytes b!"a b", .arg 1],
      .program [.int 7, .instr (.plain .err)], .bnz b!"l1"] ∧ BlocklessAll cs ∧ NoCoverAll cs ∧
    (∀ (k : Nat) (l : Line), (linesAll cs)[k]? = some l → l.Ok sampleEnv.addrOk (versionAfter ((linesAll cs).take k))) ∧
    programString (codes cs) =
      some b!"#pragma version 8\n// start\nl1:\ntxn Sender\nbyte \"a b\"\ntxna ApplicationArgs 1\nint 7\nerr\n\nbnz l1\n" := by
  refine ⟨_, rfl, by simp [BlocklessAll, Call.Blockless], by simp [NoCoverAll, Call.NoCover], ?_, by decide +kernel⟩
  intro k l h
  simp only [linesAll, Call.lines, List.cons_append, List.nil_append, List.append_nil, List.append_assoc] at h ⊢
  have hk := (List.getElem?_eq_some_iff.1 h).1
  match k, hk with
  | 0, _ => cases h; show _ ∧ _; decide
  | 1, _ => cases h; show ∀ x ∈ _, _; unfold Break; decide
  | 2, _ => cases h; exact ⟨⟨by decide, by decide⟩, trivial⟩
  | 3, _ => cases h; exact ⟨show _ < _ by decide, _, rfl, by decide⟩
  | 4, _ => cases h; show ∀ x ∈ _, _; decide
  | 5, _ => cases h; exact ⟨⟨by decide, by decide⟩, .inr ⟨_, rfl, rfl⟩⟩
  | 6, _ => cases h; exact ⟨show _ < _ by decide, trivial⟩
  | 7, _ => cases h; exact ⟨trivial, trivial⟩
  | 8, _ => cases h; trivial
  | 9, _ => cases h; exact ⟨.inl (by decide), show Unquoted _ by unfold Unquoted; decide⟩

/-- `Code` and the expression trees of `Compile` are compiled alike. -/
def plainCode : Expr → Code
  | .op o => .op o
  | .list es => .list (plainCodes es)
  | .nested es => .nested (plainCodes es)
  | .func n a r es => .func n a r (plainCodes es)
where
  plainCodes : List Expr → List Code
    | [] => []
    | e :: es => plainCode e :: plainCodes es

mutual
theorem plain_text (e : Expr) (acc : List Op) :
    (compileExpr acc e).map listingStr = (plainCode e).text.map (listingStr acc ++ ·) := by
  cases e with
  | op o => simp [compileExpr, plainCode, Code.text, listingStr]
  | list es => simpa [compileExpr, plainCode, Code.text] using plain_texts es acc
  | nested es => simp [compileExpr, plainCode, Code.text]
  | func n a r es => simp [compileExpr, plainCode, Code.text]
theorem plain_texts (es : List Expr) (acc : List Op) :
    (compileExprs acc es).map listingStr = (texts (plainCode.plainCodes es)).map (listingStr acc ++ ·) := by
  cases es with
  | nil => simp [compileExprs, plainCode.plainCodes, texts]
  | cons e es =>
    have h := plain_text e acc
    rw [compileExprs, plainCode.plainCodes, texts]
    cases hc : compileExpr acc e with
    | none =>
      rw [hc] at h
      cases ht : (plainCode e).text with
      | none => rfl
      | some t => rw [ht] at h; simp at h
    | some acc' =>
      rw [hc] at h
      cases ht : (plainCode e).text with
      | none => rw [ht] at h; simp at h
      | some t =>
        rw [ht] at h
        simp only [Option.map_some, Option.some.injEq] at h
        dsimp only
        rw [plain_texts es acc', h]
        cases texts (plainCode.plainCodes es) <;> simp
end

/-- `Program.String` prints what `Compile` lists. -/
theorem C93_compile (es : List Expr) : programString (plainCode.plainCodes es) = (compile es).map listingStr := by
  have := plain_texts [.list es] []
  rw [compile, this]
  simp [programString, plainCode.plainCodes, plainCode, listingStr]

/-- **C93 is false of the code**: adding two numbers cannot be printed; `Cover` prints `uncover`; a
string with a quote or a backslash is read as another one, or not at all; and a comment of two lines
is read as a comment and an instruction. -/
theorem C93_false :
    programString (codes [.plus (.int 1) (.int 2)]) = none ∧
    (programString (codes [.cover 1]) = some b!"uncover 1\n" ∧ linesAll [.cover 1] = [.instr (.u8 .cover 1)]) ∧
    (∃ text, programString (codes [.stringBytes b!"a\\n"]) = some text ∧
      (process sampleEnv text).map (·.listing) = some [.byte b!"a\n"]) ∧
    (∃ text, programString (codes [.stringBytes b!"a\"b"]) = some text ∧
      (process sampleEnv text).map (·.listing) ≠ some [.byte b!"a\"b"]) ∧
    (∃ text, programString (codes [.comment b!"a\nerr"]) = some text ∧
      (process sampleEnv text).map (·.listing) = some [.empty, .plain .err]) := by
  refine ⟨by decide +kernel, ⟨by decide +kernel, by simp [linesAll, Call.lines]⟩, ⟨_, rfl, by decide +kernel⟩, ⟨_, rfl, by decide +kernel⟩, ⟨_, rfl, by decide +kernel⟩⟩

end Teal.Props
