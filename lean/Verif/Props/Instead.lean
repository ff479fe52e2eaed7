import Verif.Spec.Instead
import Verif.Props.VmStack

/-!
# C124: what the debugger's machine does instead
-/

namespace Teal.Props

open Teal Teal.Spec

theorem instead_table (v : Vm) {o : Op} {args rets : List StackType} (h : insteadTakes o = some (args, rets)) (m : Mach)
    (hm : m.scratch.length = 256) : EffAt (v.executeOp o) args.reverse rets m := by
  have nop : ∀ x : X Unit, x = X.incLine → EffAt x [] [] m := by
    rintro x rfl
    exact Eff.nop X.incLine (fun m => ⟨{ m with br := m.br.incLine }, rfl, rfl⟩) m hm
  unfold insteadTakes at h
  split at h <;> cases h
  · exact Eff.simple _ _ m hm
  · exact Eff.simple _ _ m hm
  · exact Eff.simple _ _ m hm
  · exact Eff.simple _ _ m hm
  · exact nop _ rfl
  · exact nop _ rfl
  · exact nop _ rfl
  · exact nop _ rfl
  · exact nop _ rfl
  · rename_i vs
    have : vs.map (fun _ => StackType.bytes) = List.replicate vs.length .bytes := by
      rw [← List.map_const']
    have he : v.executeOp (.pushints vs) = (X.pops [] >>= fun _ => X.pushes (List.replicate vs.length .bytes) >>= fun _ => X.incLine) := by
      rw [← this]; rfl
    exact Eff.of he (eff_pushes _) m hm

/-- What an instruction of the list does. -/
theorem instead_exec (v : Vm) {o : Op} (h : Peculiar o) (m : Mach) (hm : m.scratch.length = 256) :
    (∃ m', v.executeOp o m = .ok () m' ∧ Instead o m.br.stack m'.br.stack) ∨
    ((¬ ∃ s', Instead o m.br.stack s') ∧ ∃ e m', v.executeOp o m = .panic e m') := by
  cases h with
  | @table o args rets ht =>
    have heff := instead_table v ht m hm
    by_cases hf : StackFits args m.br.stack
    · obtain ⟨vs, m', h1, h2, h3⟩ := heff.1 ((fits_iff _ _).1 hf)
      refine .inl ⟨m', h1, ?_⟩
      rw [h2, List.length_reverse]
      exact .table ht hf h3
    · refine .inr ⟨?_, heff.2 (fun h => hf ((fits_iff _ _).2 h))⟩
      rintro ⟨s', hs'⟩
      generalize m.br.stack = st at hs' hf
      cases hs' with
      | table ht' hf' hr' => rw [ht] at ht'; cases ht'; exact hf hf'
      | dup2 => cases ht
      | bury => cases ht
      | dig => cases ht
      | stores => cases ht
  | dup2 =>
    by_cases hl : 2 ≤ m.br.stack.length
    · obtain ⟨b, a, s, hs⟩ := two_cases hl
      refine .inl ⟨_, dup2_ok hs, ?_⟩
      rw [hs]
      exact .dup2 a b s
    · refine .inr ⟨?_, two_panic (by omega)⟩
      rintro ⟨s', hs'⟩
      generalize hst : m.br.stack = st at hs' hl
      cases hs' with
      | table ht' => cases ht'
      | dup2 a b s => simp at hl
  | bury n =>
    cases hs : m.br.stack with
    | nil =>
      refine .inr ⟨?_, bind_panic (pop_panic (by rw [hs]; simp [FitsTop]))⟩
      rintro ⟨s', hs'⟩
      cases hs' with
      | table ht' => cases ht'
    | cons a s =>
      by_cases hn : n < s.length
      · refine .inl ⟨_, bury_ok hs hn, ?_⟩
        show Instead _ (a :: s) (s.reverse.set n a).reverse
        have hsplit : s = s.take (s.length - 1 - n) ++ s[s.length - 1 - n]'(by omega) :: s.drop (s.length - n) := by
          have := List.drop_eq_getElem_cons (l := s) (i := s.length - 1 - n) (by omega)
          rw [show s.length - 1 - n + 1 = s.length - n by omega] at this
          rw [← this, List.take_append_drop]
        generalize s.take (s.length - 1 - n) = xs at hsplit
        generalize s[s.length - 1 - n]'(by omega) = x at hsplit
        have hl : (s.drop (s.length - n)).length = n := by rw [List.length_drop]; omega
        generalize s.drop (s.length - n) = ys at hsplit hl
        subst hsplit
        have e : ((xs ++ x :: ys).reverse.set n a).reverse = xs ++ a :: ys := by
          rw [show (xs ++ x :: ys).reverse = ys.reverse ++ x :: xs.reverse by simp,
            List.set_append_right _ _ (by simp; omega), show n - ys.reverse.length = 0 by simp; omega]
          simp
        rw [e]
        exact .bury n a x xs ys hl
      · refine .inr ⟨?_, bind_panic_of (pop_ok hs (.inl rfl)) (bind_panic ?_)⟩
        · rintro ⟨s', hs'⟩
          generalize hst : a :: s = st at hs'
          cases hs' with
          | table ht' => cases ht'
          | bury n a' x xs ys hl =>
            injection hst with h1 h2
            rw [h2] at hn
            simp at hn
            omega
        · refine ⟨.index, m.onStack s, ?_⟩
          unfold X.replace
          rw [if_neg (show ¬ n < (m.onStack s).br.stack.length from hn)]
  | dig n hn =>
    have hx : v.executeOp (.u8 .dig n) m = (X.itemAt ((m.br.stack.length + 255 - n) % 256) >>= fun v => X.push v >>= fun _ => X.incLine) m := rfl
    generalize hst : m.br.stack = st
    rw [hx, hst]
    generalize hj : (st.length + 255 - n) % 256 = j
    by_cases hlt : j < st.length
    · have hsplit : st = st.take (st.length - 1 - j) ++ st[st.length - 1 - j]'(by omega) :: st.drop (st.length - j) := by
        have := List.drop_eq_getElem_cons (l := st) (i := st.length - 1 - j) (by omega)
        rw [show st.length - 1 - j + 1 = st.length - j by omega] at this
        rw [← this, List.take_append_drop]
      have hitem : X.itemAt j m = .ok (st[st.length - 1 - j]'(by omega)) m := by
        unfold X.itemAt
        rw [hst, List.getElem?_reverse hlt, List.getElem?_eq_getElem (by omega)]
      refine .inl ⟨m.onStack (_ :: m.br.stack) |> fun m' => { m' with br := m'.br.incLine }, X.ok_bind hitem, ?_⟩
      show Instead _ st (_ :: m.br.stack)
      rw [hst]
      have hl : (st.drop (st.length - j)).length = j := by rw [List.length_drop]; omega
      generalize st.take (st.length - 1 - j) = xs at hsplit
      generalize st[st.length - 1 - j]'(by omega) = x at hsplit ⊢
      generalize st.drop (st.length - j) = ys at hsplit hl
      subst hsplit
      refine .dig n x xs ys ?_
      simp only [List.length_append, List.length_cons] at hj
      rw [show xs.length + (ys.length + 1) + 255 - n = xs.length + ys.length + 256 - n by omega] at hj
      rw [hj]; exact hl
    · refine .inr ⟨?_, bind_panic ⟨.index, m, ?_⟩⟩
      · rintro ⟨s', hs'⟩
        cases hs' with
        | table ht' => cases ht'
        | dig n x xs ys hl =>
          simp only [List.length_append, List.length_cons] at hj hlt
          rw [show xs.length + (ys.length + 1) + 255 - n = xs.length + ys.length + 256 - n by omega] at hj
          omega
      · unfold X.itemAt
        rw [hst, List.getElem?_eq_none (by rw [List.length_reverse]; omega)]
  | stores =>
    cases hs : m.br.stack with
    | nil =>
      refine .inr ⟨?_, bind_panic (pop_panic (by rw [hs]; simp [FitsTop]))⟩
      rintro ⟨s', hs'⟩
      cases hs' with
      | table ht' => cases ht'
    | cons a s =>
      cases s with
      | nil =>
        refine .inr ⟨?_, bind_panic_of (pop_ok hs (.inl rfl)) (bind_panic (pop_panic (by simp [FitsTop])))⟩
        rintro ⟨s', hs'⟩
        cases hs' with
        | table ht' => cases ht'
      | cons i s =>
        by_cases hi : Suits .uint64 i
        · have h2 : X.pop .uint64 (m.onStack (i :: s)) = .ok i (m.onStack s) := pop_ok (m := m.onStack (i :: s)) rfl hi
          have hx : v.executeOp (.plain .stores) m = (X.store i a >>= fun _ => X.incLine) (m.onStack s) := by
            show (X.pop .any >>= fun v => X.pop .uint64 >>= fun i => X.store i v >>= fun _ => X.incLine) m = _
            rw [X.ok_bind (pop_ok hs (.inl rfl)), X.ok_bind h2]
          rw [hx]
          have hsc : (m.onStack s).scratch.length = 256 := hm
          by_cases hbig : ∃ n, i.src = .uint n ∧ 256 ≤ n
          · obtain ⟨n, hn, hb⟩ := hbig
            refine .inr ⟨?_, bind_panic ⟨.index, m.onStack s, ?_⟩⟩
            · rintro ⟨s', hs'⟩
              cases hs' with
              | table ht' => cases ht'
              | stores _ _ _ _ h => have := h n hn; omega
            · unfold X.store
              rw [hn]
              dsimp only
              rw [if_neg (by omega)]
          · have hok : ∃ m', X.store i a (m.onStack s) = .ok () m' ∧ m'.br.stack = s := by
              unfold X.store
              cases hsrc : i.src with
              | uint n =>
                dsimp only
                rw [if_pos (by have : ¬ 256 ≤ n := fun h => hbig ⟨n, hsrc, h⟩; omega)]
                exact ⟨_, rfl, rfl⟩
              | _ => exact ⟨_, rfl, rfl⟩
            obtain ⟨m', h3, h4⟩ := hok
            refine .inl ⟨{ m' with br := m'.br.incLine }, ?_, ?_⟩
            · rw [X.ok_bind h3]; rfl
            · show Instead _ _ m'.br.stack
              rw [h4]
              exact .stores a i s hi (fun n hn => by
                have : ¬ 256 ≤ n := fun h => hbig ⟨n, hn, h⟩
                omega)
        · refine .inr ⟨?_, bind_panic_of (pop_ok hs (.inl rfl)) (bind_panic (pop_panic ?_))⟩
          · rintro ⟨s', hs'⟩
            cases hs' with
            | table ht' => cases ht'
            | stores _ _ _ h => exact hi h
          · intro h
            exact hi h.1

/-- **C124** With these instructions the machine fails exactly if there is nothing it could do instead, and otherwise it
does that. -/
theorem C124 {l : List Op} {version : Nat} {v w : Vm} (h : Session l version v) {k i : Nat} {b b' : VmBranch} {o : Op}
    (hs : Selected v k b i o) (hp : Peculiar o) (hstep : v.step = some w) (hb' : w.branches[k]? = some b')
    (hpaid : ¬ ∃ c, Cost version o b.stack c ∧ b.budget < c) :
    (w.error ≠ none ↔ ¬ ∃ s', Instead o b.stack s') ∧ (w.error = none → Instead o b.stack b'.stack) := by
  have hv := session_inv h
  obtain ⟨-, hver⟩ := session_listing h
  have hj : ∀ f, o ≠ .field .jsonRef f := by
    rintro f rfl
    cases hp with
    | table ht => cases ht
  have hcost : ∀ e, o.costs v.version b ≠ .error e := by
    intro e he
    cases hp with
    | table ht =>
      unfold insteadTakes at ht
      split at ht <;> cases ht <;> cases he
    | _ => cases he
  rcases selected_step hv hs hstep hb' with ⟨h1, e, h2⟩ | ⟨h1, -, c, hc, hlt⟩ | ⟨c, e, m, -, h1, h2⟩ | ⟨c, m, -, h1, h2, h3, -⟩
  · exact absurd h2 (hcost e)
  · exact absurd ⟨c, hver ▸ costIs_spec hc hj, hlt⟩ hpaid
  · rcases instead_exec v hp (v.mach b o c) hv.scratch with ⟨m', h4, -⟩ | ⟨h4, -⟩
    · rw [h2] at h4; cases h4
    · exact ⟨⟨fun _ => h4, fun _ => h1⟩, fun h => absurd h h1⟩
  · rcases instead_exec v hp (v.mach b o c) hv.scratch with ⟨m', h4, h5⟩ | ⟨-, e, m', h4⟩
    · rw [h2] at h4
      cases h4
      have h6 : Instead o b.stack b'.stack := by rw [h3]; exact h5
      exact ⟨⟨fun hn => absurd h1 hn, fun hn => absurd ⟨_, h6⟩ hn⟩, fun _ => h6⟩
    · rw [h2] at h4; cases h4

/-- The exceptions of C43 and C44 are among these instructions. -/
theorem C124_covers (o : Op) (h : WrongResults o ∨ o = .plain .dup2 ∨ ∃ n, n < 256 ∧ o = .u8 .dig n) : Peculiar o := by
  rcases h with h | rfl | ⟨n, hn, rfl⟩
  · cases h with
    | operands _ h => cases h <;> first | exact .stores | exact .bury _ | exact .table rfl
    | _ => exact .table rfl
  · exact .dup2
  · exact .dig n hn

/-- `bury 1` on a stack of four values. -/
example : outcome [.int 1, .int 2, .int 3, .int 4, .u8 .bury 1] 8 4 = some (.u8 .bury 1, false,
    [⟨.uint64, .uint 4⟩, ⟨.uint64, .uint 3⟩, ⟨.uint64, .uint 2⟩, ⟨.uint64, .uint 1⟩],
    [⟨.uint64, .uint 3⟩, ⟨.uint64, .uint 4⟩, ⟨.uint64, .uint 1⟩]) := by decide +kernel
example : Instead (.u8 .bury 1) [⟨.uint64, .uint 4⟩, ⟨.uint64, .uint 3⟩, ⟨.uint64, .uint 2⟩, ⟨.uint64, .uint 1⟩]
    [⟨.uint64, .uint 3⟩, ⟨.uint64, .uint 4⟩, ⟨.uint64, .uint 1⟩] :=
  .bury 1 ⟨.uint64, .uint 4⟩ ⟨.uint64, .uint 2⟩ [⟨.uint64, .uint 3⟩] [⟨.uint64, .uint 1⟩] rfl
/-- `getbit` of a byte string fails. -/
example : (outcome [.byte [1], .int 0, .plain .getbit] 8 2).map (·.2.1) = some true := by decide +kernel
/-- `stores` of a slot with too large a number fails. -/
example : (outcome [.int 256, .int 0, .plain .stores] 8 2).map (·.2.1) = some true ∧
    (outcome [.int 255, .int 0, .plain .stores] 8 2).map (·.2) = some (false, [⟨.uint64, .uint 0⟩, ⟨.uint64, .uint 255⟩], []) := by decide +kernel

end Teal.Props
