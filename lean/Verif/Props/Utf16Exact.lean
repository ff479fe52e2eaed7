import Verif.Props.Utf16

/-!
# Exactly which positions mean the same to client and server
-/

namespace Teal.Props

open Teal Teal.Spec Teal.JsonSpec Teal.WireSpec Teal.Lsp Teal.Lsp.Spec

/-- A text has no more code units than bytes, and as many only if it is ASCII. -/
theorem units_bytes {s : Bytes} {n : Nat} (h : Units s n) : n ≤ s.length ∧ (n = s.length → ∀ c ∈ s, c < 128) := by
  induction h with
  | nil => exact ⟨Nat.le_refl _, fun _ c hc => by cases hc⟩
  | @cons a k s ha hs ih =>
    obtain ⟨h1, h2⟩ := ih
    by_cases hsmall : a < 128
    · have hu : utf8 a = [a.toUInt8] := by unfold utf8; rw [if_pos hsmall]
      rw [if_pos (by omega), hu]
      refine ⟨by simp; omega, fun he => ?_⟩
      have he : k = s.length := by simp at he; omega
      intro c hc
      rcases List.mem_append.1 hc with hc | hc
      · rw [List.mem_singleton.1 hc]
        rw [UInt8.lt_iff_toNat_lt, Nat.toUInt8, UInt8.toNat_ofNat']
        have : (128 : UInt8).toNat = 128 := rfl
        omega
      · exact h2 he c hc
    · have hl : (if a < 0x10000 then 1 else 2) < (utf8 a).length := by
        unfold utf8
        rw [if_neg hsmall]
        by_cases h2 : a < 0x800
        · rw [if_pos (by omega), if_pos h2]; simp
        · rw [if_neg h2]
          by_cases h3 : a < 0x10000
          · rw [if_pos h3, if_pos h3]; simp
          · rw [if_neg h3, if_neg h3]; simp
      rw [List.length_append]
      exact ⟨by omega, fun he => by omega⟩

/-- **C105, exactly.**  The server says that the byte at offset `o` is in line `l` and column `c`.  The protocol's
columns put it there exactly if all characters before it on its line are ASCII. -/
theorem C105_exact {src : Bytes} {l c o : Nat} (h : At src l c o) :
    At16 src l c o ↔ ∀ c' o' x, At src l c' o' → o' < o → src[o']? = some x → x < 128 := by
  obtain ⟨pre, post, rfl, rfl, h1, h2, h3⟩ := h
  obtain ⟨a, e, hlen, hb⟩ := lastLine_split pre
  have hline : ∀ x ∈ lastLine pre, ∃ c' o', At (pre ++ post) l c' o' ∧ o' < pre.length ∧ (pre ++ post)[o']? = some x := by
    intro x hx
    obtain ⟨u, v, hu⟩ := List.append_of_mem hx
    have hvb : ∀ y ∈ x :: v, ¬ Break y := fun y hy => hb y (by rw [hu]; exact List.mem_append_right _ hy)
    have e' : pre = (a ++ u) ++ x :: v := by rw [List.append_assoc, ← hu]; exact e
    refine ⟨column (a ++ u), (a ++ u).length, ⟨a ++ u, x :: v ++ post, by rw [← List.append_assoc, ← e'], rfl, ?_, rfl, ?_⟩, ?_, ?_⟩
    · rw [← h1, e', breaks_snoc_nobreak _ _ hvb]
    · rintro ⟨-, h⟩
      rw [List.cons_append, List.head?_cons, Option.some.injEq] at h
      exact hvb x (by simp) (.inr h)
    · have := congrArg List.length e'
      simp only [List.length_append, List.length_cons] at this ⊢
      omega
    · rw [e', List.append_assoc, List.getElem?_append_right (Nat.le_refl _)]
      simp
  constructor
  · rintro ⟨pre', post', e1, e2, -, h4, -⟩ c' o' x ⟨p, q, e3, rfl, h5, h6, h7⟩ ho hx
    obtain ⟨rfl, rfl⟩ := List.append_inj e1 e2.symm
    rw [← h2, ← hlen] at h4
    have hasc := (units_bytes h4).2 rfl
    -- the byte is on the last line of the text before
    obtain ⟨v, hv⟩ : ∃ v, pre = p ++ v := by
      have := congrArg (List.take pre.length) e3
      rw [List.take_left, List.take_append, List.take_of_length_le (by omega)] at this
      exact ⟨_, this⟩
    have hvne : v ≠ [] := by
      rintro rfl
      rw [List.append_nil] at hv
      rw [hv] at ho
      exact absurd ho (Nat.lt_irrefl _)
    obtain ⟨y, v', rfl⟩ := List.exists_cons_of_ne_nil hvne
    have hxy : x = y := by
      rw [hv, List.append_assoc, List.getElem?_append_right (Nat.le_refl _)] at hx
      simpa [eq_comm] using hx
    subst hxy
    have hnb : ∀ z ∈ x :: v', ¬ Break z := by
      have hq : q = x :: v' ++ post := by
        rw [hv, List.append_assoc] at e3
        exact (List.append_cancel_left e3).symm
      have hbr : breaks (p ++ (x :: v')) = breaks p + breaks (x :: v') := by
        apply breaks_append
        rintro ⟨k1, k2⟩
        exact h7 ⟨k1, by rw [hq]; exact k2⟩
      rw [← hv, h1, h5] at hbr
      have h0 : breaks (x :: v') = 0 := by omega
      exact breaks_zero h0
    apply hasc
    have hcol : column pre = column p + (x :: v').length := by rw [hv]; exact column_append _ _ hnb
    obtain ⟨w, hw⟩ : ∃ w, lastLine pre = w ++ x :: v' := by
      rw [lastLine, hcol, hv]
      have : (p ++ x :: v').length - (column p + (x :: v').length) = p.length - column p := by
        rw [List.length_append]; omega
      rw [this, List.drop_append_of_le_length (by omega)]
      exact ⟨_, rfl⟩
    rw [hw]
    simp
  · intro h
    refine ⟨pre, post, rfl, rfl, h1, ?_, h3⟩
    rw [← h2, ← hlen]
    refine units_ascii fun x hx => ?_
    obtain ⟨c', o', h4, h5, h6⟩ := hline x hx
    exact h c' o' x h4 h5 h6

/-- Behind the letter é the two columns differ. -/
example : At b!"é: x" 0 2 2 ∧ ¬ At16 b!"é: x" 0 2 2 := by
  have h : At b!"é: x" 0 2 2 := ⟨b!"é", b!": x", rfl, rfl, by decide, by decide, by decide⟩
  refine ⟨h, fun h' => ?_⟩
  exact absurd ((C105_exact h).1 h' 0 0 195 ⟨[], b!"é: x", rfl, rfl, rfl, rfl, by decide⟩ (by decide) rfl) (by decide)

/-- On the next line they agree. -/
example : At16 b!"é:\nint 1" 1 4 8 := by
  refine (C105_exact (o := 8) ⟨b!"é:\nint ", b!"1", rfl, rfl, by decide, by decide, by decide⟩).2 ?_
  rintro c' o' x ⟨p, q, e, rfl, h1, -, -⟩ ho hx
  have key : ∀ o < 8, breaks (b!"é:\nint 1".take o) = 1 → ∀ x, b!"é:\nint 1"[o]? = some x → x < 128 := by decide +kernel
  exact key _ ho (by rw [show b!"é:\nint 1" = p ++ q from e, List.take_left]; exact h1) x hx

end Teal.Props
