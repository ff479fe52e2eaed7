import Verif.Props.Actions2

/-!
# What changing the version does to the lines before the last version pragma
-/

namespace Teal.Props

open Teal Teal.Spec Teal.Lsp Teal.Lsp.Spec

theorem versionAt_congr {ts ts' : List Token} {k V : Nat} (h : VersionAt ts k V)
    (hw : ∀ j < k, (words ts' j).map Token.v = (words ts j).map Token.v) : VersionAt ts' k V := by
  induction h with
  | first => exact .first
  | set k n h => exact .set k n (by rw [hw k (by omega)]; exact h)
  | keep k v _ hn ih => exact .keep k v (ih fun j hj => hw j (by omega)) (by rw [hw k (by omega)]; exact hn)

theorem needs_congr {ts ts' : List Token} {k v : Nat} (h : Needs ts k v)
    (hw : ∀ j < k, (words ts' j).map Token.v = (words ts j).map Token.v) (hc : ∀ j, (comments ts' j).map Token.v = (comments ts j).map Token.v)
    (hk : (words ts' k).head?.map Token.v = (words ts k).head?.map Token.v) : Needs ts' k v := by
  obtain ⟨V, sig, w, d, n1, n2, n3, n4, n5, n6, n7⟩ := h
  rw [n3] at hk
  obtain ⟨w', h1, h2⟩ := Option.map_eq_some_iff.1 hk
  refine ⟨V, sig, w', d, versionAt_congr n1 hw, ?_, h1, n4, by rw [n5, h2], n6, n7⟩
  rw [n2]
  unfold SigAt
  constructor
  · rintro ⟨j, hj, hm⟩
    exact ⟨j, hj, (modeLine_congr (hw j hj) (hc j)).2 hm⟩
  · rintro ⟨j, hj, hm⟩
    exact ⟨j, hj, (modeLine_congr (hw j hj) (hc j)).1 hm⟩

/-- **C82** (the other lines.)  If a line says which version the program is written for, changing the version does
nothing for the lines before the last such line: they keep their versions, and need what they needed. -/
theorem C82_before (h : Host) (ms : List (Choice × Msg)) (u src : Bytes) (v : Nat) (es : List TextEdit)
    (ha : Executed h ms u src (.versionUpdate u v) es) (hone : OneLine (tokens src)) (k0 : Nat) (hk0 : LastVersionLine (tokens src) k0) :
    ∃ e src', es = [e] ∧ Applied src e src' ∧ ∀ k ≤ k0, (∀ V, VersionAt (tokens src') k V ↔ VersionAt (tokens src) k V) ∧
      ∀ v', Needs (tokens src') k v' ↔ Needs (tokens src) k v' := by
  obtain ⟨mp, r, hr, rfl⟩ := executed_version ha
  obtain ⟨⟨t, h1⟩, h2⟩ := hk0
  rw [(versionToken_iff hr t).2 ⟨k0, h1, h2⟩]
  obtain ⟨a, b, rest, n, g1, g2, g3, g4, g5⟩ := id h1
  have htw : t ∈ words (tokens src) k0 := by rw [g1]; simp
  obtain ⟨t1, t2, t3⟩ := mem_words.1 htw
  obtain ⟨src', e1, e2, e3, e4⟩ := replace_token t1 t3 (literal_head g4) (bare_uint v).writes hone
  have hother : ∀ j, j < k0 → (words (tokens src') j).map Token.v = (words (tokens src) j).map Token.v := by
    intro j hj
    rw [e3 j]
    refine List.map_congr_left fun s hs => if_neg ?_
    rintro rfl
    exact absurd ((mem_words.1 hs).2.1.symm.trans t2) (by omega)
  have hhead : ∀ j, j ≤ k0 → (words (tokens src') j).head?.map Token.v = (words (tokens src) j).head?.map Token.v := by
    intro j hj
    rcases Nat.lt_or_eq_of_le hj with hj | rfl
    · rw [← List.head?_map, ← List.head?_map, hother j hj]
    · rw [← List.head?_map, e3 j, g1]
      have hne : a ≠ t := by
        rintro rfl
        have : readInt a.v = some n := (C11_int_literal _ _).2 ⟨g4, g5⟩
        rw [g2] at this
        exact absurd this (by rw [show readInt b!"#pragma" = none by decide +kernel]; simp)
      simp [hne]
  refine ⟨_, src', rfl, applied_of_edited e1, fun k hk => ⟨fun V => ?_, fun v' => ?_⟩⟩
  · exact ⟨fun h => versionAt_congr h fun j hj => (hother j (by omega)).symm, fun h => versionAt_congr h fun j hj => hother j (by omega)⟩
  · exact ⟨fun h => needs_congr h (fun j hj => (hother j (by omega)).symm) (fun j => (e4 j).symm) (hhead k hk).symm,
      fun h => needs_congr h (fun j hj => hother j (by omega)) e4 (hhead k hk)⟩

/-- The text of `C82_false`: its last line says which version it is written for, and the line before it needs another. -/
example : Executed sampleHost (openSession b!"sha3_256\n#pragma version 2") b!"u" b!"sha3_256\n#pragma version 2" (.versionUpdate b!"u" 7)
      [⟨Lsp.onLine 1 16 17, b!"7"⟩] ∧ OneLine (tokens b!"sha3_256\n#pragma version 2") ∧
    LastVersionLine (tokens b!"sha3_256\n#pragma version 2") 1 := by
  refine ⟨open_executed _ _ b!"1" _ (by decide +kernel), by unfold OneLine; decide +kernel,
    ⟨⟨b!"2", 1, 16, 17, .value⟩, ⟨b!"#pragma", 1, 0, 7, .value⟩, ⟨b!"version", 1, 8, 15, .value⟩, [], 2, by decide +kernel, rfl, rfl,
      ((C11_int_literal _ _).1 (by decide +kernel)).1, by decide⟩, ?_⟩
  rintro j hj t ⟨a, b, rest, n, h, -⟩
  have := words_lt (src := b!"sha3_256\n#pragma version 2") (k := j) (by rw [h]; simp)
  rw [show lineCount (tokens b!"sha3_256\n#pragma version 2") = 2 by decide +kernel] at this
  omega

end Teal.Props
