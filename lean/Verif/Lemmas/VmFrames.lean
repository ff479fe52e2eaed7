import Verif.Lemmas.VmHist
import Verif.Spec.Frames

/-!
# The frames of subroutines
-/

namespace Teal
open Teal.Spec

/-- What an instruction does to the frames of its branch. -/
inductive Framing (o : Op) (b b' : VmBranch) : Prop
  | call (t : Bytes) (f : VmFrame) : o = .branch .callsub t → b'.frames = f :: b.frames →
      f.p = b.stack.length % 256 → f.numArgs = 0 → f.numReturns = 0 → Framing o b b'
  | ret : o = .plain .retsub → b'.frames = b.frames.tail → Framing o b b'
  | proto (a r : Nat) (f : VmFrame) (fs : List VmFrame) : o = .u8u8 .proto a r → b.frames = f :: fs →
      b'.frames = { f with numArgs := a, numReturns := r } :: fs → Framing o b b'
  | other : (∀ t, o ≠ .branch .callsub t) → o ≠ .plain .retsub → (∀ a r, o ≠ .u8u8 .proto a r) →
      b'.frames = b.frames → Framing o b b'

theorem proto_exec {v : Vm} {a r : Nat} {m m' : Mach} (h : v.executeOp (.u8u8 .proto a r) m = .ok () m') :
    ∃ f fs, m.br.frames = f :: fs ∧ m'.br.frames = { f with numArgs := a, numReturns := r } :: fs := by
  have h : (X.prepare a r >>= fun _ => X.incLine) m = .ok () m' := h
  rw [X.bind_apply] at h
  unfold X.prepare at h
  cases hf : m.br.frames with
  | nil => rw [hf] at h; cases h
  | cons f fs =>
    rw [hf] at h
    cases h
    exact ⟨f, fs, rfl, rfl⟩

theorem exec_framing {v : Vm} {o : Op} {b : VmBranch} {c : Int} {m : Mach}
    (h : v.executeOp o (v.mach b o c) = .ok () m) : Framing o b m.br := by
  by_cases hp : ∃ a r, o = .u8u8 .proto a r
  · obtain ⟨a, r, rfl⟩ := hp
    obtain ⟨f, fs, h1, h2⟩ := proto_exec h
    exact .proto a r f fs rfl h1 h2
  have hp' : ∀ a r, o ≠ .u8u8 .proto a r := fun a r h => hp ⟨a, r, h⟩
  have hs := executeOp_spec v o (v.mach b o c)
  rw [h] at hs
  generalize hr : (XRes.ok () m) = r at hs
  cases hs with
  | hang n _ _ => cases hr
  | panic e m' _ => cases hr
  | straight m1 h1 h2 _ hc =>
    cases hr
    obtain ⟨s, sc, hl, rfl⟩ := hc
    exact .other (noFall_not h2).1 h1 hp' rfl
  | proto a r f fs ho hf => exact absurd ho (hp' a r)
  | exit m1 h1 hc =>
    cases hr
    obtain ⟨s, sc, hl, rfl⟩ := hc
    exact .other (halts_not h1).1 (halts_not h1).2 hp' rfl
  | jump t ho => cases hr; exact .other (by rw [ho]; intro t h; cases h) (by rw [ho]; intro h; cases h) hp' rfl
  | call t ho => cases hr; exact .call t _ ho rfl rfl rfl rfl
  | ret f fs m1 ho hf hc =>
    cases hr
    obtain ⟨s, sc, hl, rfl⟩ := hc
    have hf' : b.frames = f :: fs := hf
    exact .ret ho (by rw [hf']; rfl)
  | retNone ho hf =>
    cases hr
    have hf' : b.frames = [] := hf
    refine .ret ho ?_
    rw [hf']; exact hf
  | fork ts m1 ht hc =>
    cases hr
    obtain ⟨s, sc, hl, rfl⟩ := hc
    have := forks_iff.2 ht
    refine .other ?_ ?_ hp' rfl
    · intro t h; rw [h] at this; cases this
    · intro h; rw [h] at this; cases this

/-- The open calls since a call, and what `proto` said at its level. -/
def frameStep : Option (Nat × Nat × Nat) → Op → Option (Nat × Nat × Nat)
  | some (d, c), .branch .callsub _ => some (d + 1, c)
  | some (0, _), .plain .retsub => none
  | some (d + 1, c), .plain .retsub => some (d, c)
  | some (0, _), .u8u8 .proto a r => some (0, a, r)
  | s, _ => s

theorem frameStep_other {s : Option (Nat × Nat × Nat)} {o : Op} (h1 : ∀ t, o ≠ .branch .callsub t)
    (h2 : o ≠ .plain .retsub) (h3 : ∀ a r, o ≠ .u8u8 .proto a r) : frameStep s o = s := by
  unfold frameStep
  split
  · exact absurd rfl (h1 _)
  · exact absurd rfl h2
  · exact absurd rfl h2
  · exact absurd rfl (h3 _ _)
  · rfl

/-- What a branch that was at a call looks like later. -/
structure Framed (b0 : VmBranch) (i : Nat) (t : Bytes) (b : VmBranch) : Prop where
  cases : (b.trace = b0.trace ∧ b.frames = b0.frames ∧ b.stack = b0.stack ∧ (b.line = some i ∨ b.line = none)) ∨
    ∃ rest, b.trace = b0.trace ++ .branch .callsub t :: rest ∧
      ∀ d a r, rest.foldl frameStep (some (0, 0, 0)) = some (d, a, r) →
        ∃ pre f, b.frames = pre ++ f :: b0.frames ∧ pre.length = d ∧ f.p = b0.stack.length % 256 ∧
          f.numArgs = a ∧ f.numReturns = r

theorem framed_step {v w : Vm} (hv : Inv v) {k i : Nat} {b0 : VmBranch} {t : Bytes} (hi : At v.listing i (.branch .callsub t))
    (hk : k < v.branches.length) (hc : ∀ b, v.branches[k]? = some b → Framed b0 i t b) (h : v.step = some w)
    (he : w.error = none) : ∀ b, w.branches[k]? = some b → Framed b0 i t b := by
  intro b' hb'
  cases step_did hv h he hb' with
  | stayed b hb hs hl =>
    obtain ⟨e1, e2, e3, -⟩ := stayed_same hs
    rcases (hc b hb).cases with ⟨h1, h2, h3, h4⟩ | ⟨rest, h1, h2⟩
    · refine ⟨.inl ⟨e2.trans h1, e1.trans h2, e3.trans h3, ?_⟩⟩
      rcases hl with hl | hl
      · rw [hl]; exact h4
      · exact .inr hl
    · refine ⟨.inr ⟨rest, e2.trans h1, ?_⟩⟩
      rw [e1]; exact h2
  | forked k' b i' o c m ts t' x hle => exact absurd hk (by omega)
  | acted b i' o c m ha hcost hle hx hr _ =>
    have htr := acted_trace hx hr
    have hfr := acted_frames hr
    have hg := exec_framing hx
    rcases (hc b ha.old).cases with ⟨h1, h2, h3, h4⟩ | ⟨rest, h1, h2⟩
    · have : i' = i := by
        rcases h4 with h4 | h4
        · rw [ha.line] at h4; cases h4; rfl
        · rw [ha.line] at h4; cases h4
      subst this
      have ho : o = .branch .callsub t := by
        have e := ha.op
        unfold At at hi; rw [hi] at e; cases e; rfl
      subst ho
      refine ⟨.inr ⟨[], by rw [htr, h1], ?_⟩⟩
      intro d a r hd
      simp only [List.foldl_nil, Option.some.injEq, Prod.mk.injEq] at hd
      obtain ⟨rfl, rfl, rfl⟩ := hd
      cases hg with
      | call t' f _ g1 g2 g3 g4 => exact ⟨[], f, by rw [hfr, g1, h2]; rfl, rfl, by rw [g2, h3], g3, g4⟩
      | ret ho => cases ho
      | proto _ _ _ _ ho => cases ho
      | other ho => exact absurd rfl (ho t)
    · refine ⟨.inr ⟨rest ++ [o], by rw [htr, h1]; simp, ?_⟩⟩
      intro d a r hd
      rw [List.foldl_append] at hd
      simp only [List.foldl_cons, List.foldl_nil] at hd
      cases hst : rest.foldl frameStep (some (0, 0, 0)) with
      | none =>
        rw [hst] at hd
        cases hg with
        | call t' f ho => subst ho; cases hd
        | ret ho => subst ho; cases hd
        | proto _ _ _ _ ho => subst ho; cases hd
        | other g1 g2 g3 => rw [frameStep_other g1 g2 g3] at hd; cases hd
      | some s =>
        obtain ⟨d', a', r'⟩ := s
        rw [hst] at hd
        obtain ⟨pre, f, g1, g2, g3, g4, g5⟩ := h2 d' a' r' hst
        rw [hfr]
        cases hg with
        | call t' f' ho e1 =>
          subst ho
          cases hd
          exact ⟨f' :: pre, f, by rw [e1, g1]; rfl, by simp [g2], g3, g4, g5⟩
        | ret ho e1 =>
          subst ho
          cases d' with
          | zero => cases hd
          | succ d' =>
            cases hd
            cases pre with
            | nil => simp at g2
            | cons x pre => exact ⟨pre, f, by rw [e1, g1]; rfl, by simpa using g2, g3, g4, g5⟩
        | proto a1 r1 f1 fs ho e1 e2 =>
          subst ho
          cases d' with
          | zero =>
            cases hd
            have : pre = [] := List.length_eq_zero_iff.1 g2
            subst this
            rw [e1] at g1
            cases g1
            exact ⟨[], { f with numArgs := a, numReturns := r }, by rw [e2]; rfl, rfl, g3, rfl, rfl⟩
          | succ d' =>
            cases hd
            cases pre with
            | nil => simp at g2
            | cons x pre =>
              rw [e1] at g1
              cases g1
              exact ⟨_ :: pre, f, by rw [e2]; rfl, by simpa using g2, g3, g4, g5⟩
        | other e1 e2 e3 e4 =>
          rw [frameStep_other e1 e2 e3] at hd
          cases hd
          exact ⟨pre, f, by rw [e4, g1], g2, g3, g4, g5⟩

theorem balanced_frames {tr : List Op} (h : Balanced tr) : ∀ (d : Nat) (c : Nat × Nat), ∃ c',
    tr.foldl frameStep (some (d, c)) = some (d, c') ∧ (0 < d → c' = c) := by
  induction h with
  | nil => exact fun d c => ⟨c, rfl, fun _ => rfl⟩
  | op o s h1 h2 _ ih =>
    intro d c
    rw [List.foldl_cons]
    by_cases hp : ∃ a r, o = .u8u8 .proto a r
    · obtain ⟨a, r, rfl⟩ := hp
      cases d with
      | zero =>
        obtain ⟨c', h3, -⟩ := ih 0 (a, r)
        exact ⟨c', h3, fun h => absurd h (by omega)⟩
      | succ d => exact ih (d + 1) c
    · rw [frameStep_other h1 h2 fun a r h => hp ⟨a, r, h⟩]
      exact ih d c
  | call t a s _ _ ih1 ih2 =>
    intro d c
    rw [List.foldl_cons, List.foldl_append, List.foldl_cons]
    obtain ⟨c1, h1, h2⟩ := ih1 (d + 1) c
    obtain rfl := h2 (by omega)
    have : frameStep (some (d, c1)) (.branch .callsub t) = some (d + 1, c1) := rfl
    rw [this, h1]
    exact ih2 d c1

theorem noProto_frames {tr : List Op} (h : NoProto tr) (c : Nat × Nat) :
    tr.foldl frameStep (some (0, c)) = some (0, c) := by
  induction h with
  | nil => rfl
  | op o s h1 h2 h3 _ ih => rw [List.foldl_cons, frameStep_other h1 h2 h3, ih]
  | call t a s ha _ ih =>
    rw [List.foldl_cons, List.foldl_append, List.foldl_cons]
    obtain ⟨c1, h1, h2⟩ := balanced_frames ha 1 c
    obtain rfl := h2 (by omega)
    have : frameStep (some (0, c1)) (.branch .callsub t) = some (1, c1) := rfl
    rw [this, h1]
    exact ih

end Teal
