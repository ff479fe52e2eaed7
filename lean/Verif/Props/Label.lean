import Verif.Props.Complete

/-!
# Labels in completions

C128: the comments and the functions shown with the labels that are offered.
-/

namespace Teal.Props
open Teal Teal.Spec Teal.Lsp Teal.Lsp.Spec

/-- **C128** What is shown with the labels offered for a jump, exactly: every definition of a label is offered,
with all comments on lines of their own since the last label above it, one below the other, and with the
numbers of the last `proto` below a label of this name. -/
theorem C128_exact (h : Host) (ms : List (Choice × Msg)) (u src : Bytes) (k : Nat) (c : Int) (a : Result)
    (ha : Answered h ms u src (.completion ⟨k, c⟩) a) (w : Token) (rest : List Token) (hw : words (tokens src) k = w :: rest)
    (hc : (w.e : Int) < c) (i : Nat) (hi : Pointed rest c i)
    (hj : (w.v ∈ [b!"b", b!"bz", b!"bnz", b!"callsub"] ∧ i = 0) ∨ w.v ∈ [b!"switch", b!"match"]) :
    ∃ cs, a = .completions cs ∧ ∀ v, .arg v ∈ cs ↔ v.value = none ∧ ∃ l cm, LabelLine (tokens src) l v.name ∧
      CommentsAbove (tokens src) l cm ∧ v.docs = [chLF].intercalate cm ∧
      ∀ x y, v.sig = some (x, y) ↔ FunctionOf (tokens src) v.name x y := by
  obtain ⟨ch, mp, r, hr, -⟩ := answered ha
  obtain ⟨cs, h1, h2, -⟩ := C85_operand_exact h ms u src k c a ha w rest (.inl hw) hc i hi _ (C24_pragma_partial _ src r hr).2.1
  refine ⟨cs, h1, fun v => (h2 v).trans ⟨?_, ?_⟩⟩
  · intro ho
    cases ho with
    | label l n cm sig _ hl hc hs => exact ⟨rfl, l, cm, hl, hc, rfl, hs⟩
    | value name n hcand =>
      exfalso
      have hargs : (opsGet w.v).map (·.shape.args) = some [⟨.label, false⟩] ∨ (opsGet w.v).map (·.shape.args) = some [⟨.label, true⟩] :=
        hj.imp (fun h => label_rows _ h.1) (fun h => labels_rows _ h)
      generalize hv : some n = v at hcand
      generalize w.v = wv at hcand hargs
      cases hcand with
      | target => cases hv
      | targets => cases hv
      | const => rw [int_row] at hargs; simp at hargs
      | field _ _ _ _ hf =>
        obtain ⟨e, ⟨ty, arr⟩, he, harg, hne, hnm⟩ := fieldName_iff.1 hf
        rw [he] at hargs
        have : ty = .label := by
          rcases hargs with h | h <;>
          · have h := Option.some.inj h
            dsimp only at h
            rw [h] at harg
            have := List.mem_of_getElem? harg
            simp only [List.mem_singleton] at this
            exact congrArg ArgInfo.type this
        subst this
        exact hne hnm.symm
  · rintro ⟨h3, l, cm, hl, hc, hd, hs⟩
    obtain ⟨name, value, sig, docs⟩ := v
    cases h3
    cases hd
    exact .label l _ cm _ hj hl hc hs

/-- **C128** (partial: where the comments directly above the label are the only ones since the last label; see
`C128_false`.)  A label offered for a jump is shown with the comments directly above its definition. -/
theorem C128_partial (h : Host) (ms : List (Choice × Msg)) (u src : Bytes) (k : Nat) (c : Int) (a : Result)
    (ha : Answered h ms u src (.completion ⟨k, c⟩) a) (w : Token) (rest : List Token) (hw : words (tokens src) k = w :: rest)
    (hc : (w.e : Int) < c) (i : Nat) (hi : Pointed rest c i)
    (hj : (w.v ∈ [b!"b", b!"bz", b!"bnz", b!"callsub"] ∧ i = 0) ∨ w.v ∈ [b!"switch", b!"match"])
    (l j : Nat) (n : Bytes) (hl : LabelLine (tokens src) l n) (hb : OnlyBlock (tokens src) j l) :
    ∃ cs sig, a = .completions cs ∧
      .arg ⟨n, none, sig, [chLF].intercalate ((List.range' j (l - j)).flatMap (ownComment (tokens src)))⟩ ∈ cs := by
  obtain ⟨ch, mp, r, hr, -⟩ := answered ha
  obtain ⟨cs, h1, h2⟩ := C128_exact h ms u src k c a ha w rest hw hc i hi hj
  obtain ⟨s, hs, rfl, rfl⟩ := (symbol_facts hr).2 l n hl
  obtain ⟨cm, -, -, -, h5⟩ := (symbol_facts hr).1 s hs
  refine ⟨cs, s.sig, h1, (h2 _).2 ⟨rfl, s.l, _, hl, ?_, rfl, h5⟩⟩
  obtain ⟨hjl, hcom, m, hmj, hm, hno⟩ := hb
  refine ⟨m, by omega, hm, ?_, ?_⟩
  · intro x n' h6 h7 hlab
    by_cases hx : x < j
    · exact (hno x h6 hx).1 n' hlab
    · obtain ⟨-, t, ht, -⟩ := hlab
      rw [(hcom x (by omega) h7).1] at ht
      cases ht
  · have h6 : List.range' m (s.l - m) = List.range' m (j - m) ++ List.range' j (s.l - j) := by
      rw [show s.l - m = (j - m) + (s.l - j) by omega, ← List.range'_append, Nat.one_mul, show m + (j - m) = j by omega]
    rw [h6, List.flatMap_append]
    have h7 : (List.range' m (j - m)).flatMap (ownComment (tokens src)) = [] := by
      rw [List.flatMap_eq_nil_iff]
      intro x hx
      rw [List.mem_range'_1] at hx
      unfold ownComment
      split
      · rename_i hw
        rw [(hno x hx.1 (by omega)).2 hw]; rfl
      · rfl
    rw [h7, List.nil_append]

/-- A text with a function that has two lines of comment, and a label. -/
def labelSrc : Bytes := b!"// Adds\n//  two numbers\nadd:\nproto 2 1\nretsub\nx:\nb "

/-- Both labels are offered for the jump, the first with its comments and its numbers of arguments and results. -/
example : ∃ cs, Answered sampleHost (openSession labelSrc) b!"u" labelSrc (.completion ⟨6, 2⟩) (.completions cs) ∧
    cs = [.arg ⟨b!"add", none, some (2, 1), b!" Adds\n  two numbers"⟩, .arg ⟨b!"x", none, none, []⟩] ∧
    (∃ w, words (tokens labelSrc) 6 = [w] ∧ w.v = b!"b" ∧ (w.e : Int) < 2) ∧ LabelLine (tokens labelSrc) 2 b!"add" ∧
    OnlyBlock (tokens labelSrc) 0 2 ∧ ownComment (tokens labelSrc) 1 = [b!"  two numbers"] :=
  ⟨_, open_answered _ _ _ (by decide +kernel), rfl, ⟨⟨b!"b", 6, 0, 1, .value⟩, by decide +kernel, rfl, by decide⟩,
   ⟨by decide, ⟨b!"add:", 2, 0, 4, .value⟩, by decide +kernel, rfl⟩,
   ⟨by decide, by
      intro i _ h
      have : i = 0 ∨ i = 1 := by omega
      rcases this with rfl | rfl <;> decide +kernel, 0, by decide, .inl rfl, fun i _ h => absurd h (by omega)⟩,
   by decide +kernel⟩

/-- **C128** fails: a comment that has nothing to do with the label, with instructions between them, is shown
with it; a comment behind an instruction or behind the label is not. -/
theorem C128_false :
    Answered sampleHost (openSession b!"// setup\nint 1\n// f\nf:\nb ") b!"u" b!"// setup\nint 1\n// f\nf:\nb "
      (.completion ⟨4, 2⟩) (.completions [.arg ⟨b!"f", none, none, b!" setup\n f"⟩]) ∧
    Answered sampleHost (openSession b!"int 1 // one\nf: // f\nb ") b!"u" b!"int 1 // one\nf: // f\nb "
      (.completion ⟨2, 2⟩) (.completions [.arg ⟨b!"f", none, none, []⟩]) :=
  ⟨open_answered _ _ _ (by decide +kernel), open_answered _ _ _ (by decide +kernel)⟩

/-- The operand between the columns: the cursor is on neither of the two, and the one behind the last is gone by;
a comment on a line of its own is taken for an opcode. -/
example : (∃ w rest, Begins (tokens b!"gtxn  0 Fee\n//b") 0 w rest ∧ w.v = b!"gtxn" ∧ Pointed rest 5 2) ∧
    ∃ w, Begins (tokens b!"gtxn  0 Fee\n//b") 1 w [] ∧ w.v = b!"b" ∧ Pointed [] 9 0 :=
  ⟨⟨⟨b!"gtxn", 0, 0, 4, .value⟩, [⟨b!"0", 0, 6, 7, .value⟩, ⟨b!"Fee", 0, 8, 11, .value⟩], .inl (by decide +kernel), rfl,
    .off (by decide)⟩, ⟨b!"b", 1, 0, 3, .comment⟩, .inr ⟨by decide +kernel, by decide +kernel⟩, rfl, .off (by simp)⟩

end Teal.Props
