import Verif.Lemmas.Display
import Verif.Lemmas.VmCame
import Verif.Spec.Run

/-!
# What a real run can do, the machine can do as well
-/

namespace Teal
open Teal.Spec

theorem ofTypes_nil : OfTypes [] [] := ⟨rfl, fun i t x h => by simp at h⟩

theorem ofTypes_snoc {ts : List StackType} {t : StackType} {xs : List Val} {x : Val} (h : OfType t x) (hs : OfTypes ts xs) :
    OfTypes (ts ++ [t]) (x :: xs) := by
  refine ⟨by simp [hs.1], fun i t' x' h1 h2 => ?_⟩
  rw [List.reverse_append] at h1
  cases i with
  | zero => cases h1; cases h2; exact h
  | succ i => exact hs.2 i t' x' h1 h2

theorem ofTypes_any {n : Nat} {xs : List Val} (h : xs.length = n) : OfTypes (List.replicate n .any) xs := by
  refine ⟨by simp [h], fun i t x h1 h2 => ?_⟩
  rw [List.reverse_replicate] at h1
  have := List.eq_of_mem_replicate (List.mem_of_getElem? h1)
  subst this
  trivial

/-- What is on the real stack when an instruction of the table is executed. -/
theorem does_operands {fn : Functions} {o : Op} {r r' : Real} (h : Does fn o r r') {args rets : List StackType}
    (he : effect o = some (args, rets)) : ∃ xs s, r.stack = xs ++ s ∧ OfTypes args xs := by
  have none : ∀ {rets' : List StackType}, effect o = some ([], rets') → ∃ xs s, r.stack = xs ++ s ∧ OfTypes args xs := by
    intro rets' h'
    rw [h'] at he; cases he
    exact ⟨[], r.stack, rfl, ofTypes_nil⟩
  cases h with
  | constants hc => cases hc <;> exact none rfl
  | load n => exact none rfl
  | store n hs => cases he; exact ⟨[_], _, hs, ofTypes_snoc (ts := []) trivial ofTypes_nil⟩
  | loads hs hlt => cases he; exact ⟨[_], _, hs, ofTypes_snoc (ts := []) ⟨_, rfl⟩ ofTypes_nil⟩
  | stores hs hlt => cases he; exact ⟨[_, _], _, hs, ofTypes_snoc (ts := [.uint64]) trivial (ofTypes_snoc (ts := []) ⟨_, rfl⟩ ofTypes_nil)⟩
  | rearranges hr =>
    generalize hrs : r.stack = rs at hr
    cases hr with
    | swap a b s => cases he; exact ⟨[_, _], _, rfl, ofTypes_any (n := 2) rfl⟩
    | dup a s => cases he; exact ⟨[_], _, rfl, ofTypes_any (n := 1) rfl⟩
    | dup2 a b s => cases he; exact ⟨[_, _], _, rfl, ofTypes_any (n := 2) rfl⟩
    | dig n a s hs =>
      cases he
      have := (List.getElem?_eq_some_iff.1 hs).1
      exact ⟨rs.take (n + 1), rs.drop (n + 1), (List.take_append_drop _ _).symm, ofTypes_any (by simp; omega)⟩
    | cover n a xs s hx => cases he; exact ⟨a :: xs, s, rfl, ofTypes_any (by simp [hx])⟩
    | uncover n a xs s hx => cases he; exact ⟨xs ++ [a], s, by simp, ofTypes_any (by simp [hx])⟩
    | bury n a xs x s hx => cases he; exact ⟨a :: (xs ++ [x]), s, by simp, ofTypes_any (by simp; omega)⟩
    | popn n xs s hx => cases he; exact ⟨xs, _, rfl, ofTypes_any hx⟩
    | dupn n a s => cases he; exact ⟨[_], _, rfl, ofTypes_any (n := 1) rfl⟩
  | sha256 hs => cases he; exact ⟨[_], _, hs, ofTypes_snoc (ts := []) ⟨_, rfl⟩ ofTypes_nil⟩
  | ed25519verify hs =>
    cases he
    exact ⟨[_, _, _], _, hs, ofTypes_snoc (ts := [.bytes, .bytes]) ⟨_, rfl⟩ (ofTypes_snoc (ts := [.bytes]) ⟨_, rfl⟩
      (ofTypes_snoc (ts := []) ⟨_, rfl⟩ ofTypes_nil))⟩
  | ecdsaVerify f hs =>
    cases he
    exact ⟨[_, _, _, _, _], _, hs, ofTypes_snoc (ts := [.bytes, .bytes, .bytes, .bytes]) ⟨_, rfl⟩
      (ofTypes_snoc (ts := [.bytes, .bytes, .bytes]) ⟨_, rfl⟩ (ofTypes_snoc (ts := [.bytes, .bytes]) ⟨_, rfl⟩
      (ofTypes_snoc (ts := [.bytes]) ⟨_, rfl⟩ (ofTypes_snoc (ts := []) ⟨_, rfl⟩ ofTypes_nil))))⟩
  | callsub t => exact none rfl
  | proto a n hc ha => cases he
  | frame hc ha =>
    generalize hrs : r.stack = rs at ha
    cases ha <;> cases he
  | retsub hc => cases he
  | retsubProto hc hl => cases he
  | table he' ho hs hx hy => rw [he'] at he; cases he; exact ⟨_, _, hs, hx⟩

theorem holds_suits {fn : Functions} {v : VmValue} {x : Val} {t : StackType} (h : Holds fn v x) (hn : v.t ≠ .none) (ht : OfType t x) : Suits t v := by
  have h1 := h.1
  cases hv : v.t with
  | none => exact (hn hv).elim
  | any => exact .inr (.inl hv)
  | uint64 =>
    rw [hv] at h1
    obtain ⟨n, rfl⟩ := h1
    cases t with
    | any => exact .inl rfl
    | uint64 => exact .inr (.inr hv)
    | bytes => obtain ⟨b, hb⟩ := ht; cases hb
    | none => exact ht.elim
  | bytes =>
    rw [hv] at h1
    obtain ⟨n, rfl⟩ := h1
    cases t with
    | any => exact .inl rfl
    | bytes => exact .inr (.inr hv)
    | uint64 => obtain ⟨b, hb⟩ := ht; cases hb
    | none => exact ht.elim

theorem holds_fits {fn : Functions} {vs : List VmValue} {xs s : List Val} {ts : List StackType} (h : StackHolds fn vs (xs ++ s))
    (hn : ∀ v ∈ vs, v.t ≠ .none) (ht : OfTypes ts xs) : StackFits ts vs := by
  refine ⟨by rw [h.1, List.length_append, ht.1]; omega, fun i t v h1 h2 => ?_⟩
  have hi : i < xs.length := by
    have := (List.getElem?_eq_some_iff.1 h1).1
    rw [List.length_reverse] at this
    rw [ht.1]; exact this
  have e := List.getElem?_eq_getElem hi
  exact holds_suits (h.2 i v _ h2 (by rw [List.getElem?_append_left hi]; exact e)) (hn v (List.mem_of_getElem? h2)) (ht.2 i t _ h1 e)

/-- `proto` asks for no more arguments than there are. -/
def Protos (r : Real) : Prop := ∀ c ∈ r.calls, ∀ a n, c.proto = some (a, n) → a ≤ c.height

theorem does_protos {fn : Functions} {o : Op} {r r' : Real} (h : Does fn o r r') (hp : Protos r) : Protos r' := by
  cases h with
  | callsub t =>
    intro c hc a n h
    rcases List.mem_cons.1 hc with rfl | hc
    · cases h
    · exact hp c hc a n h
  | proto a n hc ha =>
    intro c hc' a' n' h
    rcases List.mem_cons.1 hc' with rfl | hc'
    · cases h; exact ha
    · exact hp c (by rw [hc]; exact List.mem_cons_of_mem _ hc') a' n' h
  | retsub hc => intro c hc'; exact hp c (by rw [hc]; exact List.mem_cons_of_mem _ hc')
  | retsubProto hc hl => intro c hc'; exact hp c (by rw [hc]; exact List.mem_cons_of_mem _ hc')
  | _ => exact hp

theorem doesAll_protos {fn : Functions} {os : List Op} {r r' : Real} (h : DoesAll fn os r r') (hp : Protos r) : Protos r' := by
  induction h with
  | nil => exact hp
  | snoc _ h ih => exact does_protos h (ih hp)

/-- Unless the instruction is strange, the machine can execute what the real run executes. -/
theorem exec_progress {fn : Functions} {v : Vm} {o : Op} {m : Mach} {r r' : Real} (hm : Sound fn m r)
    (hn : ∀ x ∈ m.br.stack, x.t ≠ .none) (hsc : m.scratch.length = 256) (hr : OperandInRange o) (hs : ¬ Strange r o)
    (hf : OnFrame o → m.br.frames = [] → r.calls = []) (hp : Protos r) (ho : Does fn o r r') : ∃ m', v.executeOp o m = .ok () m' := by
  cases he : effect o with
  | some e =>
    obtain ⟨args, rets⟩ := e
    by_cases hb : ∃ n, o = .u8 .bury n
    · obtain ⟨n, rfl⟩ := hb
      have hl : r.stack.length = 2 * n + 1 := by
        apply Classical.byContradiction
        intro hc; exact hs (.bury n hc)
      have h0 : 0 < n := by
        cases ho with
        | constants hc => cases hc
        | rearranges hr =>
          generalize r.stack = rs at hr
          cases hr; omega
        | frame hc ha => generalize r.stack = rs at ha; cases ha
        | table _ h _ _ _ => exact (h trivial).elim
      rw [← hm.1.1] at hl
      cases hst : m.br.stack with
      | nil => rw [hst] at hl; simp at hl
      | cons a s =>
        rw [hst, List.length_cons] at hl
        have h1 : n < s.length := by omega
        exact ⟨_, bury_ok hst h1⟩
    · have hw : ¬ WrongOperands o := by
        intro h
        cases h with
        | bitlen => exact hs .bitlen
        | getbit => exact hs .getbit
        | setbit => exact hs .setbit
        | appOptedIn => exact hs .appOptedIn
        | bminus => exact hs (.ignored .bminus)
        | bbitOr => exact hs (.ignored .bbitOr)
        | extractUint64 => exact hs (.ignored .extractUint64)
        | stores => exact hs .stores
        | bury n => exact hb ⟨n, rfl⟩
      obtain ⟨outs, heff, -⟩ := executeOp_eff v he hr hw
        (by rintro n rfl; apply Classical.byContradiction; intro hc; exact hs (.dupn n (by omega))) m hsc
        (by rintro n rfl; apply Classical.byContradiction; intro hc; rw [hm.1.1] at hc; exact hs (.dig n (by omega)))
      obtain ⟨xs, s, h1, h2⟩ := does_operands ho he
      have hst := hm.1
      rw [h1] at hst
      obtain ⟨vs, m', h3, -⟩ := heff.1 ((fits_iff _ _).1 (holds_fits hst hn h2))
      exact ⟨m', h3⟩
  | none =>
    have hfr := hm.2.2
    cases ho with
    | constants hc => cases hc <;> cases he
    | load n => cases he
    | store n hs => cases he
    | loads hs hlt => cases he
    | stores hs hlt => cases he
    | rearranges hr =>
      generalize hrs : r.stack = rs at hr
      cases hr <;> cases he
    | sha256 hs => cases he
    | ed25519verify hs => cases he
    | ecdsaVerify f hs => cases he
    | callsub t => cases he
    | proto a n hc ha =>
      cases hfs : m.br.frames with
      | nil => rw [hf (.proto a n) hfs] at hc; cases hc
      | cons f fs =>
        show ∃ m', ((X.prepare a n >>= fun _ => X.incLine)) m = .ok () m'
        have h1 : X.prepare a n m = .ok () { m with br := { m.br with frames := { f with numArgs := a, numReturns := n } :: fs } } := by
          unfold X.prepare; rw [hfs]
        rw [X.ok_bind h1]
        exact ⟨_, rfl⟩
    | frame hc ha =>
      rename_i c cs s
      have key : ∀ {f : VmFrame} {i : Int} {slot : Nat} {k : I8Op}, o = .i8 k i → f.p = c.height % 256 → (slot : Int) = c.height + i →
          frameIndex f.p i = slot := by
        intro f i slot k ho hp hslot
        subst ho
        have : ¬ 256 ≤ (c.height : Int) + i := fun hc' => hs (.frame k i hc hc')
        unfold frameIndex
        rw [hp]
        omega
      have hst := hm.1
      generalize hrs : r.stack = rs at ha hst
      have hfs : ∃ f fs, m.br.frames = f :: fs ∧ f.p = c.height % 256 := by
        cases hfs : m.br.frames with
        | nil =>
          have := hf (by cases ha <;> exact .access _ _) hfs
          rw [this] at hc; cases hc
        | cons f fs => rw [hfs, hc] at hfr; exact ⟨f, fs, rfl, hfr.1⟩
      obtain ⟨f, fs, hfs, hp⟩ := hfs
      have h1 : X.topFrame m = .ok f m := by unfold X.topFrame; rw [hfs]
      cases ha with
      | dig i slot x t hslot hx =>
        have hl : slot < m.br.stack.reverse.length := by
          have := (List.getElem?_eq_some_iff.1 hx).1
          rw [List.length_reverse] at this ⊢
          rw [hst.1]; exact this
        show ∃ m', ((X.topFrame >>= fun f => X.itemAt (frameIndex f.p i) >>= fun v => X.push v >>= fun _ => X.incLine)) m = .ok () m'
        rw [X.ok_bind h1, key rfl hp hslot]
        have h2 : X.itemAt slot m = .ok m.br.stack.reverse[slot] m := by
          unfold X.itemAt; rw [List.getElem?_eq_getElem hl]
        rw [X.ok_bind h2]
        exact ⟨_, rfl⟩
      | bury i slot a t hslot hx =>
        obtain ⟨v1, vs1, e1, g1, hst⟩ := hst.cons_inv
        show ∃ m', ((X.topFrame >>= fun f => X.pop .any >>= fun v => X.replace (frameIndex f.p i) v >>= fun _ => X.incLine)) m = .ok () m'
        rw [X.ok_bind h1, key rfl hp hslot, X.ok_bind (pop_ok e1 (.inl rfl))]
        have h2 : X.replace slot v1 (m.onStack vs1) = .ok () ((m.onStack vs1).onStack (vs1.reverse.set slot v1).reverse) := by
          unfold X.replace
          rw [if_pos (by rw [Mach.onStack_stack, hst.1]; exact hx)]
          rfl
        rw [X.ok_bind h2]
        exact ⟨_, rfl⟩
    | retsub hc =>
      show ∃ m', X.retsub m = .ok () m'
      unfold X.retsub
      cases hfs : m.br.frames with
      | nil => exact ⟨_, rfl⟩
      | cons f fs =>
        rw [hfs, hc] at hfr
        obtain ⟨-, e, -⟩ := hfr
        obtain ⟨e1, e2⟩ := Prod.mk.inj e
        dsimp only
        rw [e1, e2]
        exact ⟨_, rfl⟩
    | retsubProto hc hl =>
      rename_i h0 a n cs
      show ∃ m', X.retsub m = .ok () m'
      unfold X.retsub
      cases hfs : m.br.frames with
      | nil => exact ⟨_, rfl⟩
      | cons f fs =>
        rw [hfs, hc] at hfr
        obtain ⟨-, e, -⟩ := hfr
        obtain ⟨e1, e2⟩ := Prod.mk.inj e
        dsimp only
        rw [e1, e2]
        have hlen : r.stack.length = h0 + n := by
          apply Classical.byContradiction
          intro hc'; exact hs (.leftOver hc hc')
        have ha : a ≤ h0 := hp _ (by rw [hc]; exact List.mem_cons_self) a n rfl
        have hlm := hm.1.1
        rw [X.ok_bind (popN_ok n m (by omega)), X.ok_bind (popN_ok a _ (by rw [Mach.onStack_stack, List.length_drop]; omega)),
          X.ok_bind (pushAll_ok _ _)]
        exact ⟨_, rfl⟩
    | table he' ho hs hx hy => rw [he'] at he; cases he

end Teal
