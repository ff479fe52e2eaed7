import Verif.Lemmas.OperandFit

/-!
# Lemmas: reading operands stops at the word that is to blame
-/

namespace Teal

open Spec P Props

variable {e : ErrorTexts} {addrOk : Bytes → Bool} {ver : Nat} {w : Bytes}

theorem Suits.mono {ty : ArgType} {ws ws' : List Bytes} (h : Suits ver w ty ws) (hs : ∀ x ∈ ws', x ∈ ws) : Suits ver w ty ws' :=
  ⟨h.group, h.const, h.uint, fun ht x hx => h.array ht x (hs x hx), fun ht x hx => h.closed ht x (hs x hx), fun x hx => h.wordy x (hs x hx)⟩

/-- At most one operand is read with `maybeReadUint8`. -/
def oneOptional : Bool → List DocArg → Bool
  | _, [] => true
  | b, a :: as => !(b && a.optional) && oneOptional (b || a.optional) as

theorem docArgsFrom_cons (b : Bool) (a : DocArg) (as : List DocArg) :
    docArgsFrom b (a :: as) = { a with optional := b || a.optional } :: docArgsFrom (b || a.optional) as := by
  cases b <;> rfl

theorem behind_sub (ty : ArgType) (x : Bytes) (ws : List Bytes) : ∀ y ∈ behind ty x ws, y ∈ ws := by
  intro y hy
  unfold behind at hy
  split at hy
  · exact List.mem_of_mem_tail hy
  · exact hy

theorem behind_le (ty : ArgType) (x : Bytes) (ws : List Bytes) : (behind ty x ws).length ≤ ws.length := by
  unfold behind
  split
  · rw [List.length_tail]; omega
  · exact Nat.le_refl _

theorem ofKind_ne {k : Bytes} {g : List Bytes} (h : OfKind addrOk ver w k g) : g ≠ [] := by
  cases h with
  | bytes ws v h => cases h <;> simp
  | _ => simp

theorem walk_blames : ∀ (k : Nat) (ws : List Bytes), ws.length ≤ k → ∀ (as : List DocArg) (b : Bool) (p : Nat), 1 ≤ p →
    (∀ a ∈ as, Suits ver w a.type ws) → oneOptional b as = true → ∀ n why m, walkArgs e addrOk ver as false ws = some (n, why, m) →
    ∃ i, Blames e addrOk ver w b p ((docArgsFrom b as).map DocArg.operand) ws i m ∧ i < p + ws.length ∧ n = p + ws.length - i ∧
      why.ofOperand = true := by
  intro k
  induction k with
  | zero =>
    intro ws hk as b p hp hs ho n why m hw
    obtain rfl : ws = [] := List.length_eq_zero_iff.1 (Nat.le_zero.1 hk)
    cases as with
    | nil => cases hw
    | cons a as =>
      unfold walkArgs at hw
      split at hw
      · cases hw
      · rename_i hn
        cases hw
        rw [docArgsFrom_cons, List.map_cons]
        simp only [Bool.or_eq_true, not_or, Bool.not_eq_true] at hn
        refine ⟨p - 1, .missing b p _ _ hn.1 (fun h => ?_), by simp; omega, by simp; omega, rfl⟩
        simpa [DocArg.operand, hn.2] using h
  | succ k ih =>
    intro ws hk as b p hp hs ho n why m hw
    cases as with
    | nil => cases ws <;> cases hw
    | cons a as =>
      cases ws with
      | nil =>
        unfold walkArgs at hw
        split at hw
        · cases hw
        · rename_i hn
          cases hw
          rw [docArgsFrom_cons, List.map_cons]
          simp only [Bool.or_eq_true, not_or, Bool.not_eq_true] at hn
          refine ⟨p - 1, .missing b p _ _ hn.1 (fun h => ?_), by simp; omega, by simp; omega, rfl⟩
          simpa [DocArg.operand, hn.2] using h
      | cons x xs =>
        have ha := hs a (by simp)
        rw [walk_cons] at hw
        cases he : argError e addrOk ver a.name a.type x xs with
        | some z =>
          rw [he] at hw
          cases hw
          obtain ⟨i, h1, h2, h3, h4⟩ := error_says (a := a.array) (b := b || a.optional) ha he
          rw [docArgsFrom_cons, List.map_cons]
          refine ⟨p + i, .here b p _ _ _ i m (fun g rest hx hg => ?_) h1, by simp; omega, by simp; omega, h4⟩
          have := (fits_none (e := e) (name := a.name) ha hg hx).1
          rw [he] at this
          cases this
        | none =>
          rw [he] at hw
          dsimp only at hw
          obtain ⟨g, h1, h2⟩ := none_fits ha he
          have hlen : g.length + (behind a.type x xs).length = xs.length + 1 := by
            rw [← List.length_append, ← h1, List.length_cons]
          have hb := behind_le a.type x xs
          have hsub : ∀ y ∈ behind a.type x xs, y ∈ x :: xs := fun y hy => List.mem_cons_of_mem _ (behind_sub _ _ _ y hy)
          rw [List.length_cons] at hk ⊢
          cases har : a.array with
          | true =>
            rw [har] at hw
            obtain ⟨i, h3, h4, h5, h6⟩ := ih _ (by omega) (a :: as) b (p + g.length) (by omega)
              (fun a' ha' => (hs a' ha').mono hsub) ho n why m hw
            rw [docArgsFrom_cons, List.map_cons] at h3 ⊢
            exact ⟨i, by rw [h1]; exact .again b p _ _ g _ i m har h2 h3, by omega, by omega, h6⟩
          | false =>
            rw [har] at hw
            simp only [oneOptional, Bool.and_eq_true] at ho
            obtain ⟨i, h3, h4, h5, h6⟩ := ih _ (by omega) as (b || a.optional) (p + g.length) (by omega)
              (fun a' ha' => (hs a' (by simp [ha'])).mono hsub) ho.2 n why m hw
            rw [docArgsFrom_cons, List.map_cons]
            exact ⟨i, by rw [h1]; exact .next b p _ _ g _ i m har h2 h3, by omega, by omega, h6⟩

theorem blames_walk {b : Bool} {p : Nat} {os : List Operand} {ws : List Bytes} {i : Nat} {m : Bytes}
    (h : Blames e addrOk ver w b p os ws i m) : 1 ≤ p → ∀ as : List DocArg, os = (docArgsFrom b as).map DocArg.operand →
    (∀ a ∈ as, Suits ver w a.type ws) → oneOptional b as = true →
    ∃ why, walkArgs e addrOk ver as false ws = some (p + ws.length - i, why, m) := by
  have split : ∀ {b : Bool} {o : Operand} {os : List Operand} {as : List DocArg}, o :: os = (docArgsFrom b as).map DocArg.operand →
      ∃ a as', as = a :: as' ∧ o = ⟨a.name, a.type.text, a.array, b || a.optional⟩ ∧ os = (docArgsFrom (b || a.optional) as').map DocArg.operand := by
    intro b o os as h
    cases as with
    | nil => cases h
    | cons a as =>
      rw [docArgsFrom_cons, List.map_cons] at h
      injection h with h1 h2
      exact ⟨a, as, rfl, h1, h2⟩
  induction h with
  | missing b p o os hl ho =>
    intro hp as has hs h1
    obtain ⟨a, as, rfl, rfl, -⟩ := split has
    have hopt : a.optional = false := by
      cases hopt : a.optional with
      | false => rfl
      | true =>
        rw [hopt] at ho
        have := ho (by simp)
        subst this
        simp [oneOptional, hopt] at h1
    refine ⟨.missingArg, ?_⟩
    unfold walkArgs
    have : p + ([] : List Bytes).length - (p - 1) = 1 := by simp; omega
    rw [this, hopt, show a.array = false from hl]
    rfl
  | here b p o os ws i m hn hm =>
    intro hp as has hs h1
    obtain ⟨a, as, rfl, rfl, -⟩ := split has
    cases ws with
    | nil => cases hm
    | cons x xs =>
      have ha := hs a (by simp)
      obtain ⟨why, he⟩ := says_error (addrOk := addrOk) ha hm (by
        intro hnone
        obtain ⟨g, h1, h2⟩ := none_fits ha hnone
        exact hn g _ h1 h2)
      refine ⟨why, ?_⟩
      rw [walk_cons, he, List.length_cons]
      show some (_, _, _) = _
      congr 2
      omega
  | next b p o os g ws i m hl hg hb ih =>
    intro hp as has hs h1
    obtain ⟨a, as, rfl, rfl, hos⟩ := split has
    have hne : g ≠ [] := ofKind_ne hg
    obtain ⟨x, g', rfl⟩ := List.exists_cons_of_ne_nil hne
    have ha := hs a (by simp)
    obtain ⟨h2, h3⟩ := fits_none (e := e) (name := a.name) (ws := g' ++ ws) ha hg rfl
    simp only [oneOptional, Bool.and_eq_true] at h1
    obtain ⟨why, h4⟩ := ih (by omega) as hos (fun a' ha' => (hs a' (by simp [ha'])).mono (fun y hy => by simp [hy])) h1.2
    refine ⟨why, ?_⟩
    have har : a.array = false := hl
    rw [List.cons_append, walk_cons, h2, h3, har]
    simp only [Bool.false_eq_true, if_false]
    rw [h4]
    congr 2
    simp only [List.length_cons, List.length_append]
    omega
  | again b p o os g ws i m hl hg hb ih =>
    intro hp as has hs h1
    obtain ⟨a, as, rfl, rfl, hos⟩ := split has
    have hne : g ≠ [] := ofKind_ne hg
    obtain ⟨x, g', rfl⟩ := List.exists_cons_of_ne_nil hne
    have ha := hs a (by simp)
    obtain ⟨h2, h3⟩ := fits_none (e := e) (name := a.name) (ws := g' ++ ws) ha hg rfl
    obtain ⟨why, h4⟩ := ih (by omega) (a :: as) has (fun a' ha' => (hs a' ha').mono (fun y hy => by simp [hy])) h1
    refine ⟨why, ?_⟩
    have har : a.array = true := hl
    rw [List.cons_append, walk_cons, h2, h3, har]
    simp only [if_true]
    rw [h4]
    congr 2
    simp only [List.length_cons, List.length_append]
    omega

end Teal
