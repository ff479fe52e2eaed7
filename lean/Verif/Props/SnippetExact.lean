import Verif.Props.Snippet
import Verif.Props.Actions2

/-!
# What the snippets give in versions before 8
-/

namespace Teal.Props

open Teal Teal.Spec Teal.WireSpec Teal.JsonSpec Teal.Wire

theorem early {env : Env} {src s : Bytes} {ls : List (List Bytes)} {v : Nat}
    (h : ∀ k, (words (tokens src) k).map Token.v = (([b!"#pragma", b!"version", s] :: ls)[k]?).getD [])
    (hs : DecimalOf v s) (hv : 1 ≤ v) (hv' : v < 8) (hp : ∀ l ∈ ls, l.head? ≠ some b!"#pragma") {k : Nat} {w : Bytes} {ws : List Bytes}
    (hw : w ∈ [b!"switch", b!"proto"]) (hk : ls[k]? = some (w :: ws)) {r : ProcessResult} (hr : process env src = some r) : ¬ NoErrors r := by
  have hV : VersionAt (tokens src) (k + 1) v := by
    refine Lsp.version_after (k0 := 0) ?_ ?_ (k + 1) (by omega)
    · rw [h 0]
      exact ⟨s, [], rfl, intLiteral_decimal hs, hv, by omega⟩
    · rintro j hj n ⟨s', rest, he, -⟩
      obtain ⟨j, rfl⟩ : ∃ i, j = i + 1 := ⟨j - 1, by omega⟩
      rw [h (j + 1), List.getElem?_cons_succ] at he
      cases hl : ls[j]? with
      | none => rw [hl] at he; cases he
      | some l =>
        rw [hl] at he
        have he : l = _ := he
        exact hp l (List.mem_of_getElem? hl) (by rw [he]; rfl)
  have hd : ∀ w ∈ [b!"switch", b!"proto"], ∃ d ∈ docOps, d.name = w ∧ d.name ≠ b!"args" ∧ ∀ sig, d.since sig = some 8 := by decide +kernel
  obtain ⟨d, h1, h2, h3, h4⟩ := hd w hw
  have hk' := h (k + 1)
  rw [List.getElem?_cons_succ, hk] at hk'
  replace hk' : (words (tokens src) (k + 1)).map Token.v = w :: ws := hk'
  cases hws : words (tokens src) (k + 1) with
  | nil => rw [hws] at hk'; cases hk'
  | cons t ts =>
    rw [hws, List.map_cons] at hk'
    injection hk' with hk1 _
    obtain ⟨sig, hsig⟩ : ∃ sig : Bool, sig = true ↔ SigAt (tokens src) (k + 1) := by
      by_cases hS : SigAt (tokens src) (k + 1)
      · exact ⟨true, by simp [hS]⟩
      · exact ⟨false, by simp [hS]⟩
    have := (C22_version_partial env src r hr (k + 1) v hV sig hsig t (by rw [hws]; rfl) d h1 (by rw [h2, hk1]) h3 8 v).2 ⟨h4 sig, hv', rfl⟩
    exact fun hno => hno _ this rfl

/-- **C115** (exactly.)  What the snippets insert is without an error exactly in versions from 8 on. -/
theorem C115_exact (t : Texts) :
    (∃ out, Inserts out (completionOut t (.snippet b!"soc")) ∧
      ∀ (fill : Nat → Bytes) (env : Env) (v : Nat) (s : Bytes) (r : ProcessResult), (∀ i ∈ [1, 2, 3, 4, 5, 6, 8], Bare (fill i)) →
        ([1, 2, 3, 4, 5, 6, 8].map fill).Nodup → fill 9 = [] → 1 ≤ v → v < 256 → DecimalOf v s →
        process env (b!"#pragma version " ++ s ++ b!"\n" ++ out fill) = some r → (NoErrors r ↔ 8 ≤ v)) ∧
    ∃ out, Inserts out (completionOut t (.snippet b!"func")) ∧
      ∀ (fill : Nat → Bytes) (env : Env) (v a b : Nat) (s : Bytes) (r : ProcessResult), Bare (fill 1) → IsByte (fill 2) a → IsByte (fill 3) b →
        fill 4 = [] → 1 ≤ v → v < 256 → DecimalOf v s →
        process env (b!"#pragma version " ++ s ++ b!"\n" ++ out fill) = some r → (NoErrors r ↔ 8 ≤ v) := by
  constructor
  · obtain ⟨out, h1, h2⟩ := C115_soc_partial t
    refine ⟨out, h1, fun fill env v s r hb hd h9 hv hv' hs hr => ⟨fun hno => Nat.le_of_not_lt fun hlt => ?_, fun h8 => ?_⟩⟩
    · rw [C114_unique h1 (snippet_inserts t (by decide) (by decide +kernel) (fun fill => soc_expands fill))] at hr
      have w1 : Bare b!"#pragma" ∧ Bare b!"version" ∧ Bare b!"txn" ∧ Bare b!"OnCompletion" ∧ Bare b!"switch" ∧ Bare b!"b" := by decide
      obtain ⟨w1, w2, w3, w4, w5, w6⟩ := w1
      have w7 := decimal_bare hs
      have hall : ∀ l ∈ ([b!"#pragma", b!"version", s] :: socLines (fill 1) (fill 2) (fill 3) (fill 4) (fill 5) (fill 6) (fill 8)), ∀ w ∈ l, Bare w := by
        simp only [socLines, List.forall_mem_cons, List.not_mem_nil, false_imp_iff, implies_true, and_true]
        have b1 := hb 1 (by decide)
        have b2 := hb 2 (by decide)
        have b3 := hb 3 (by decide)
        have b4 := hb 4 (by decide)
        have b5 := hb 5 (by decide)
        have b6 := hb 6 (by decide)
        have b8 := hb 8 (by decide)
        have c1 := bare_colon b1
        have c2 := bare_colon b2
        have c3 := bare_colon b3
        have c4 := bare_colon b4
        have c5 := bare_colon b5
        have c6 := bare_colon b6
        have c8 := bare_colon b8
        simp only [w1, w2, w3, w4, w5, w6, w7, b1, b2, b3, b4, b5, b6, b8, c1, c2, c3, c4, c5, c6, c8, and_true]
      obtain ⟨-, -, h3⟩ := laid (laid_lines (e := [chLF]) (.inl rfl)
          (ls := ([b!"#pragma", b!"version", s] :: socLines (fill 1) (fill 2) (fill 3) (fill 4) (fill 5) (fill 6) (fill 8)).map fun ws => (([] : Bytes), ws)) (by
        intro l hl
        obtain ⟨ws, hws, rfl⟩ := List.mem_map.1 hl
        exact ⟨fun x hx => (by cases hx), hall ws hws⟩))
      rw [List.map_map (f := fun ws => (([] : Bytes), ws)) (g := (·.2)), show ((·.2) ∘ fun ws : List Bytes => (([] : Bytes), ws)) = id from rfl, List.map_id] at h3
      refine early (env := env) (k := 1) (w := b!"switch") h3 hs hv hlt ?_ (by decide) (by unfold socLines; rfl) (r := r) ?_ hno
      · intro l hl
        simp only [socLines, List.mem_cons, List.not_mem_nil, or_false] at hl
        rcases hl with rfl | rfl | rfl | rfl | rfl | rfl | rfl | rfl | rfl | rfl | rfl | rfl | rfl | rfl | rfl | rfl | rfl | rfl | rfl | rfl <;>
          first | exact colon_pragma _ | simp
      · rw [← hr]
        dsimp only
        rw [h9]
        simp [socPieces, socLines, Piece.out, Laid.text, lineText, chLF, chSpace]
    · obtain ⟨r', h3, h4, -⟩ := h2 fill env v s hb hd h9 h8 hv' hs
      rw [hr] at h3
      cases h3
      exact h4
  · obtain ⟨out, h1, h2⟩ := C115_func_partial t
    refine ⟨out, h1, fun fill env v a b s r hb ha hb' h4 hv hv' hs hr => ⟨fun hno => Nat.le_of_not_lt fun hlt => ?_, fun h8 => ?_⟩⟩
    · rw [C114_unique h1 (snippet_inserts t (by decide) (by decide +kernel) (fun fill => func_expands fill))] at hr
      have hbyte : ∀ {w n}, IsByte w n → Bare w := by
        rintro w n ⟨h0, ds, h1, -⟩
        exact bare_noslash h0 (digits_chars h1)
      have w1 : Bare b!"#pragma" ∧ Bare b!"version" ∧ Bare b!"proto" ∧ Bare b!"retsub" := by decide
      obtain ⟨w1, w2, w3, w4⟩ := w1
      have one : ∀ {w : Bytes}, Bare w → WritesAll [w] [w] := fun h => writes_all (by simpa using h)
      have tab : ∀ c ∈ ([9] : Bytes), Blank c := by decide
      have no : ∀ c ∈ ([] : Bytes), Blank c := by simp
      obtain ⟨-, -, h3⟩ := laid (xs := [⟨[], [b!"#pragma", b!"version", s], [chLF]⟩, ⟨[], [fill 1 ++ [58]], [chCR, chLF]⟩, ⟨[], [], [chCR, chLF]⟩,
          ⟨[9], [b!"proto", fill 2, fill 3], [chCR, chLF]⟩, ⟨[9], [], [chCR, chLF]⟩, ⟨[9], [b!"retsub"], [chCR, chLF]⟩])
        (vss := [b!"#pragma", b!"version", s] :: [[fill 1 ++ [58]], [], [b!"proto", fill 2, fill 3], [], [b!"retsub"]])
        (.cons ⟨no, writes_all (by simp [w1, w2, decimal_bare hs]), .inl rfl⟩ (.cons ⟨no, one (bare_colon hb), .inr rfl⟩
          (.cons ⟨no, .nil, .inr rfl⟩ (.cons ⟨tab, writes_all (by simp [w3, hbyte ha, hbyte hb']), .inr rfl⟩
            (.cons ⟨tab, .nil, .inr rfl⟩ (.cons ⟨tab, one w4, .inr rfl⟩ .nil))))))
      refine early (env := env) (k := 2) (w := b!"proto") h3 hs hv hlt ?_ (by decide) rfl (r := r) ?_ hno
      · intro l hl
        simp only [List.mem_cons, List.not_mem_nil, or_false] at hl
        rcases hl with rfl | rfl | rfl | rfl | rfl <;> first | exact colon_pragma _ | simp
      · rw [← hr]
        dsimp only
        rw [h4]
        simp [funcPieces, Piece.out, Laid.text, lineText, chLF, chCR, chSpace]
    · obtain ⟨r', h3, h5, -⟩ := h2 fill env v a b s hb ha hb' h4 h8 hv' hs
      rw [hr] at h3
      cases h3
      exact h5

/-- Names and numbers for the tab stops of both, and a version before 8. -/
example : (∀ i ∈ [1, 2, 3, 4, 5, 6, 8], Bare ((fun i => if i = 9 then [] else b!"l" ++ formatUint i) i)) ∧
    ([1, 2, 3, 4, 5, 6, 8].map fun i => if i = 9 then [] else b!"l" ++ formatUint i).Nodup ∧ DecimalOf 7 b!"7" ∧ Bare b!"sub" ∧ IsByte b!"2" 2 := by
  refine ⟨by decide +kernel, by decide +kernel, ?_, by decide, ⟨by decide, [2], ⟨by decide, by decide⟩, by decide, by decide⟩⟩
  have := formatUint_decimal 7
  rwa [show formatUint 7 = b!"7" by decide +kernel] at this

end Teal.Props
