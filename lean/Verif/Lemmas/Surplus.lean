import Verif.Lemmas.LineOps
import Verif.Spec.Instr

/-!
# When words are left behind an instruction
-/

namespace Teal
open Spec P

theorem word_left {α : Type} {r : Nat → Bytes → Option α} {f : α → Reader Op} {ver : Nat} {ws : List Bytes}
    {p : Op × List Bytes} (h : (Reader.word r).bind f ver ws = some p) :
    ∃ x xs a, ws = x :: xs ∧ f a ver xs = some p := by
  unfold Reader.bind Reader.word at h
  cases ws with
  | nil => cases h
  | cons x xs =>
    cases hr : r ver x with
    | none => simp only [hr, Option.map_none] at h; cases h
    | some a => simp only [hr, Option.map_some] at h; exact ⟨x, xs, a, rfl, h⟩

theorem opt_left {α : Type} {r : Bytes → Option α} {f : Option α → Reader Op} {ver : Nat} {ws : List Bytes}
    {p : Op × List Bytes} (h : (Reader.opt r).bind f ver ws = some p) :
    (ws = [] ∧ f none ver [] = some p) ∨ ∃ x xs a, ws = x :: xs ∧ f (some a) ver xs = some p := by
  unfold Reader.bind Reader.opt at h
  cases ws with
  | nil => exact .inl ⟨rfl, h⟩
  | cons x xs =>
    cases hr : r x with
    | none => simp only [hr, Option.map_none] at h; cases h
    | some a => simp only [hr, Option.map_some] at h; exact .inr ⟨x, xs, a, rfl, h⟩

theorem all_left {α : Type} {r : Bytes → List Bytes → Option (α × List Bytes)} {g : List α → Op} {ver : Nat} {ws : List Bytes}
    {o : Op} {rest : List Bytes} (h : (Reader.all r).bind (fun vs => Reader.ret (g vs)) ver ws = some (o, rest)) : rest = [] := by
  unfold Reader.bind Reader.all Reader.ret at h
  cases hm : Reader.many r ws.length ws with
  | none => simp [hm] at h
  | some vs => simp only [hm, Option.map_some, Option.some.injEq, Prod.mk.injEq] at h; exact h.2.symm

theorem ret_left {a o : Op} {ver : Nat} {ws rest : List Bytes} (h : Reader.ret a ver ws = some (o, rest)) : ws = rest := by
  unfold Reader.ret at h
  injection h with h
  injection h

theorem bytesAt_left {w v : Bytes} {ws rest : List Bytes} (h : bytesAt w ws = some (v, rest)) :
    rest = ws ∨ (∃ x, ws = x :: rest) ∧ w ∈ [b!"base32", b!"b32", b!"base64", b!"b64"] := by
  have one : ∀ {α : Type} {f : α → Bytes} {m : Option α}, m.map (fun a => (f a, ws)) = some (v, rest) → rest = ws := by
    intro α f m h
    obtain ⟨a, -, h⟩ := Option.map_eq_some_iff.1 h
    injection h with _ h
    exact h.symm
  unfold bytesAt at h
  split at h
  · exact .inl (one (f := id) h)
  split at h
  · exact .inl (one (f := id) h)
  split at h
  · exact .inl (one (f := id) h)
  split at h
  · rename_i hp
    cases ws with
    | nil => cases h
    | cons x ws =>
      obtain ⟨a, -, h⟩ := Option.map_eq_some_iff.1 h
      injection h with _ h
      subst h
      exact .inr ⟨⟨x, rfl⟩, by rcases hp with rfl | rfl <;> simp⟩
  split at h
  · rename_i hp
    cases ws with
    | nil => cases h
    | cons x ws =>
      obtain ⟨a, -, h⟩ := Option.map_eq_some_iff.1 h
      injection h with _ h
      subst h
      exact .inr ⟨⟨x, rfl⟩, by rcases hp with rfl | rfl <;> simp⟩
  split at h
  · split at h
    · injection h with h; injection h with _ h; exact .inl h.symm
    · cases h
    · cases h
  · cases h

/-- How many operands a parse function reads. -/
def shapeLimit : Shape → Limit
  | .plain _ => .upTo 0
  | .u8 _ => .upTo 1
  | .u8u8 _ => .upTo 2
  | .i8 _ => .upTo 1
  | .field _ _ => .upTo 1
  | .fieldIdx _ => .upTo 2
  | .fieldOptIdx _ _ => .upTo 2
  | .groupField _ _ => .upTo 2
  | .gtxn => .upTo 3
  | .gtxna => .upTo 3
  | .gitxna => .upTo 3
  | .int => .upTo 1
  | .pushint => .upTo 1
  | .byte => .constant
  | .pushbytes => .constant
  | .addr => .upTo 1
  | .method => .upTo 1
  | .intcblock => .any
  | .pushints => .any
  | .bytecblock => .any
  | .pushbytess => .any
  | .branch _ => .upTo 1
  | .switch => .any
  | .match_ => .any
  | .replace => .upTo 1
  | .extract => .upTo 2

theorem bytes_left {g : Bytes → Op} {ver : Nat} {ws rest : List Bytes} {o : Op}
    (h : Reader.bytes.bind (fun v => Reader.ret (g v)) ver ws = some (o, rest)) (hr : rest ≠ []) :
    ¬ Limit.constant.Allows ws := by
  unfold Reader.bind Reader.bytes Reader.ret at h
  cases ws with
  | nil => cases h
  | cons w ws =>
    dsimp only at h
    cases hb : bytesAt w ws with
    | none => rw [hb] at h; cases h
    | some p =>
      obtain ⟨v, left⟩ := p
      rw [hb] at h
      simp only [Option.some.injEq, Prod.mk.injEq] at h
      obtain ⟨-, rfl⟩ := h
      have hl := List.length_pos_iff.2 hr
      rcases bytesAt_left hb with rfl | ⟨⟨x, rfl⟩, hm⟩
      · rintro (h1 | ⟨h1, x, h2, h3⟩)
        · simp only [List.length_cons] at h1; omega
        · simp at h2; subst h2
          -- the first word says how to decode the second one
          unfold bytesAt at hb
          simp only [List.mem_cons, List.not_mem_nil, or_false] at h3
          have hlen : left.length = 1 := by simpa using h1
          match left, hlen with
          | [y], _ =>
            rcases h3 with rfl | rfl | rfl | rfl <;>
              (revert hb; simp [hasPrefix, List.isPrefixOf])
      · rintro (h1 | ⟨h1, -⟩)
        · simp at h1
        · simp only [List.length_cons] at h1; omega

theorem eval_left {addrOk : Bytes → Bool} {sh : Shape} {ver : Nat} {ws rest : List Bytes} {o : Op}
    (h : evalShape addrOk sh ver ws = some (o, rest)) (hr : rest ≠ []) : ¬ (shapeLimit sh).Allows ws := by
  have hl := List.length_pos_iff.2 hr
  cases sh <;> simp only [evalShape] at h <;> unfold shapeLimit
  case plain k => have := ret_left h; subst this; simp only [Limit.Allows]; omega
  case u8 k => obtain ⟨x, xs, a, rfl, h1⟩ := word_left h; have := ret_left h1; subst this; simp only [Limit.Allows, List.length_cons]; omega
  case i8 k => obtain ⟨x, xs, a, rfl, h1⟩ := word_left h; have := ret_left h1; subst this; simp only [Limit.Allows, List.length_cons]; omega
  case field r k => obtain ⟨x, xs, a, rfl, h1⟩ := word_left h; have := ret_left h1; subst this; simp only [Limit.Allows, List.length_cons]; omega
  case int => obtain ⟨x, xs, a, rfl, h1⟩ := word_left h; have := ret_left h1; subst this; simp only [Limit.Allows, List.length_cons]; omega
  case pushint => obtain ⟨x, xs, a, rfl, h1⟩ := word_left h; have := ret_left h1; subst this; simp only [Limit.Allows, List.length_cons]; omega
  case addr => obtain ⟨x, xs, a, rfl, h1⟩ := word_left h; have := ret_left h1; subst this; simp only [Limit.Allows, List.length_cons]; omega
  case method => obtain ⟨x, xs, a, rfl, h1⟩ := word_left h; have := ret_left h1; subst this; simp only [Limit.Allows, List.length_cons]; omega
  case branch k => obtain ⟨x, xs, a, rfl, h1⟩ := word_left h; have := ret_left h1; subst this; simp only [Limit.Allows, List.length_cons]; omega
  case u8u8 k =>
    obtain ⟨x, xs, a, rfl, h1⟩ := word_left h; obtain ⟨y, ys, b, rfl, h2⟩ := word_left h1
    have := ret_left h2; subst this; simp only [Limit.Allows, List.length_cons]; omega
  case fieldIdx k =>
    obtain ⟨x, xs, a, rfl, h1⟩ := word_left h; obtain ⟨y, ys, b, rfl, h2⟩ := word_left h1
    have := ret_left h2; subst this; simp only [Limit.Allows, List.length_cons]; omega
  case groupField c k =>
    obtain ⟨x, xs, a, rfl, h1⟩ := word_left h; obtain ⟨y, ys, b, rfl, h2⟩ := word_left h1
    have := ret_left h2; subst this; simp only [Limit.Allows, List.length_cons]; omega
  case fieldOptIdx k k' =>
    obtain ⟨x, xs, a, rfl, h1⟩ := word_left h
    rcases opt_left h1 with ⟨rfl, h2⟩ | ⟨y, ys, b, rfl, h2⟩
    · exact absurd (ret_left h2).symm hr
    · have := ret_left h2; subst this; simp only [Limit.Allows, List.length_cons]; omega
  case gtxn =>
    obtain ⟨x, xs, a, rfl, h1⟩ := word_left h; obtain ⟨y, ys, b, rfl, h2⟩ := word_left h1
    rcases opt_left h2 with ⟨rfl, h3⟩ | ⟨y, ys, b, rfl, h3⟩
    · exact absurd (ret_left h3).symm hr
    · have := ret_left h3; subst this; simp only [Limit.Allows, List.length_cons]; omega
  case gtxna =>
    obtain ⟨x, xs, a, rfl, h1⟩ := word_left h; obtain ⟨y, ys, b, rfl, h2⟩ := word_left h1
    obtain ⟨z, zs, c, rfl, h3⟩ := word_left h2
    have := ret_left h3; subst this; simp only [Limit.Allows, List.length_cons]; omega
  case gitxna =>
    obtain ⟨x, xs, a, rfl, h1⟩ := word_left h; obtain ⟨y, ys, b, rfl, h2⟩ := word_left h1
    obtain ⟨z, zs, c, rfl, h3⟩ := word_left h2
    have := ret_left h3; subst this; simp only [Limit.Allows, List.length_cons]; omega
  case byte => exact bytes_left h hr
  case pushbytes => exact bytes_left h hr
  case intcblock => exact absurd (all_left h) hr
  case pushints => exact absurd (all_left h) hr
  case bytecblock => exact absurd (all_left h) hr
  case pushbytess => exact absurd (all_left h) hr
  case switch => exact absurd (all_left h) hr
  case match_ => exact absurd (all_left h) hr
  case replace =>
    rcases opt_left h with ⟨rfl, h1⟩ | ⟨y, ys, b, rfl, h1⟩
    · exact absurd (ret_left h1).symm hr
    · have := ret_left h1; subst this; simp only [Limit.Allows, List.length_cons]; omega
  case extract =>
    rcases opt_left h with ⟨rfl, h1⟩ | ⟨y, ys, b, rfl, h1⟩
    · exact absurd (ret_left h1).symm hr
    · obtain ⟨z, zs, c, rfl, h2⟩ := word_left h1
      have := ret_left h2; subst this; simp only [Limit.Allows, List.length_cons]; omega

theorem limit_rows : ∀ e ∈ opsList, operandLimit e.name = shapeLimit e.shape := by
  have h : ∀ e ∈ opsList, (match operandLimit e.name, shapeLimit e.shape with
    | .upTo n, .upTo m => decide (n = m)
    | .any, .any => true
    | .constant, .constant => true
    | _, _ => false) = true := by decide +kernel
  intro e he
  have := h e he
  revert this
  generalize operandLimit e.name = a
  generalize shapeLimit e.shape = b
  cases a <;> cases b <;> simp

end Teal
