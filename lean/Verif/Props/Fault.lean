import Verif.Model.VmError
import Verif.Lemmas.Fault
import Verif.Lemmas.DapOut
import Verif.Props.Instead
import Verif.Props.Dap2

/-!
# C127: why an instruction fails, and what the debugger says
-/

namespace Teal.Props

open Teal Teal.Spec

/-- How a step on the selected branch fails. -/
theorem selected_error {v w : Vm} (hv : Inv v) {k i : Nat} {b b' : VmBranch} {o : Op} {e : VmErr} (hs : Selected v k b i o)
    (h : v.step = some w) (hb' : w.branches[k]? = some b') (he : w.error = some e) :
    (b' = b ∧ o.costs v.version b = .error e) ∨
    (∃ c m, CostIs v.version b o c ∧ v.executeOp o (v.mach b o c) = .panic e m ∧ b' = m.br) := by
  obtain ⟨hacts, uniq⟩ := selected_acts hv hs
  have hspec := step_spec hv
  rw [h] at hspec
  generalize hr : some w = r at hspec
  cases hspec with
  | idle h0 => rw [hacts.sel] at h0; cases h0
  | @costErr k' b0 i' o' e' ha hc =>
    cases hr
    obtain ⟨rfl, rfl, rfl, rfl⟩ := uniq ha
    simp only [Option.some.injEq] at he
    subst he
    have h1 := ha.get
    simp only [h1, Option.some.injEq] at hb'
    exact .inl ⟨hb'.symm, hc⟩
  | @poor k' b0 i' o' c ha hc hlt =>
    cases hr
    simp only [start_error hv] at he
    cases he
  | hang => cases hr
  | @fail k' b0 i' o' c e' m ha hc hle hx =>
    cases hr
    obtain ⟨rfl, rfl, rfl, rfl⟩ := uniq ha
    simp only [Option.some.injEq] at he
    subst he
    have hk : k' < v.start.branches.length := (List.getElem?_eq_some_iff.1 ha.get).1
    refine .inr ⟨c, m, hc, hx, ?_⟩
    simp only [Vm.writeBack] at hb'
    rw [List.getElem?_append_left (by rw [List.length_set]; exact hk), List.getElem?_set_self hk] at hb'
    exact (Option.some.inj hb').symm
  | @done k' b0 i' o' c m ha hc hle hx =>
    cases hr
    have hf := ha.finished hv hx
    rw [hf.error] at he
    cases he

theorem cause_bury (v : Vm) (n : Nat) {m m' : Mach} {e : VmErr} (hx : v.executeOp (.u8 .bury n) m = .panic e m') :
    (TopFault [.any] m.br.stack e m'.br.stack ∧ m' = m.onStack m'.br.stack) ∨
    (e = .index ∧ NoPlace (.u8 .bury n) m.br.stack ∧ m' = m.onStack m'.br.stack) := by
  replace hx : (X.pop .any >>= fun v => X.replace n v >>= fun _ => X.incLine) m = .panic e m' := hx
  cases hs : m.br.stack with
  | nil =>
    have e1 : X.pop .any m = .panic (.emptyStack .any) m := by unfold X.pop; rw [hs]
    rw [X.bind_apply, e1] at hx
    cases hx
    rw [hs]
    exact .inl ⟨.empty _ _, by rw [← hs]; rfl⟩
  | cons a s =>
    rw [X.ok_bind (pop_ok hs (.inl rfl)), X.bind_apply] at hx
    unfold X.replace at hx
    split at hx
    · rename_i h1
      split at h1
      · cases hx
      · cases h1
    · rename_i h1
      split at h1
      · cases h1
      · rename_i hn
        cases h1
        cases hx
        exact .inr ⟨rfl, .bury n a s (by simpa using hn), rfl⟩
    · rename_i h1
      split at h1 <;> cases h1

theorem cause_stores (v : Vm) {m m' : Mach} {e : VmErr} (hm : m.scratch.length = 256)
    (hx : v.executeOp (.plain .stores) m = .panic e m') :
    (TopFault [.any, .uint64] m.br.stack e m'.br.stack ∧ m' = m.onStack m'.br.stack) ∨
    (e = .index ∧ NoPlace (.plain .stores) m.br.stack ∧ m' = m.onStack m'.br.stack) := by
  replace hx : (X.pop .any >>= fun v => X.pop .uint64 >>= fun i => X.store i v >>= fun _ => X.incLine) m = .panic e m' := hx
  cases hs : m.br.stack with
  | nil =>
    have e1 : X.pop .any m = .panic (.emptyStack .any) m := by unfold X.pop; rw [hs]
    rw [X.bind_apply, e1] at hx
    cases hx
    rw [hs]
    exact .inl ⟨.empty _ _, by rw [← hs]; rfl⟩
  | cons a s =>
    rw [X.ok_bind (pop_ok hs (.inl rfl))] at hx
    cases s with
    | nil =>
      cases hx
      exact .inl ⟨.next (.inl rfl) (.empty _ _), rfl⟩
    | cons i s =>
      by_cases hi : Suits .uint64 i
      · have h2 : X.pop .uint64 (m.onStack (i :: s)) = .ok i (m.onStack s) := pop_ok (m := m.onStack (i :: s)) rfl hi
        rw [X.ok_bind h2, X.bind_apply] at hx
        unfold X.store at hx
        cases hsrc : i.src with
        | uint n =>
          simp only [hsrc] at hx
          by_cases hn : n < (m.onStack s).scratch.length
          · rw [if_pos hn] at hx; cases hx
          · rw [if_neg hn] at hx
            cases hx
            refine .inr ⟨rfl, .stores a i n s hi hsrc ?_, rfl⟩
            have : (m.onStack s).scratch.length = 256 := hm
            omega
        | _ => simp only [hsrc] at hx; cases hx
      · have e1 : X.pop .uint64 (m.onStack (i :: s)) = .panic (.wrongType .uint64 i.t) (m.onStack (i :: s)) := by
          unfold X.pop; dsimp only [Mach.onStack]
          rw [if_neg (show ¬ (StackType.uint64 = .any ∨ i.t = .any ∨ i.t = .uint64) from hi)]
        rw [X.bind_apply, e1] at hx
        cases hx
        exact .inl ⟨.next (.inl rfl) (.wrong _ _ hi), rfl⟩

theorem cause_dig (v : Vm) (n : Nat) (hn : n < 256) {m m' : Mach} {e : VmErr} (hm : m.scratch.length = 256)
    (hx : v.executeOp (.u8 .dig n) m = .panic e m') : e = .index ∧ NoPlace (.u8 .dig n) m.br.stack ∧ m' = m := by
  rcases instead_exec v (.dig n hn) m hm with ⟨m1, h1, -⟩ | ⟨h1, -⟩
  · rw [hx] at h1; cases h1
  · have hx' : (X.itemAt ((m.br.stack.length + 255 - n) % 256) >>= fun v => X.push v >>= fun _ => X.incLine) m = .panic e m' := hx
    rw [X.bind_apply] at hx'
    unfold X.itemAt at hx'
    cases hq : m.br.stack.reverse[(m.br.stack.length + 255 - n) % 256]? with
    | some a => simp only [hq] at hx'; cases hx'
    | none =>
      simp only [hq] at hx'
      cases hx'
      exact ⟨rfl, .dig n _ h1, rfl⟩

/-- **C127** An instruction that fails does so because of the first value, from the top of the stack, that is missing or of
the wrong type: the error says which type was expected and which was found, and the values above it are gone.  The only
other reason is a place that does not exist.  The branch stays at the instruction. -/
theorem C127 {l : List Op} {version : Nat} {v w : Vm} (h : Session l version v) {k i : Nat} {b b' : VmBranch} {o : Op}
    {args : List StackType} {e : VmErr} (hs : Selected v k b i o) (ht : Takes o args) (hr : OperandInRange o)
    (hstep : v.step = some w) (hb' : w.branches[k]? = some b') (he : w.error = some e) :
    (Fault args b.stack e b'.stack ∨ (e = .index ∧ NoPlace o b.stack)) ∧
      b'.line = some i ∧ b'.frames = b.frames ∧ b'.name = b.name := by
  have hv := session_inv h
  rcases selected_error hv hs hstep hb' he with ⟨rfl, hc⟩ | ⟨c, m, -, hx, rfl⟩
  · exact ⟨.inr (costs_noPlace hr hc), hs.line, rfl, rfl⟩
  · have done : (TopFault args.reverse b.stack e m.br.stack ∧ m = (v.mach b o c).onStack m.br.stack) ∨
        (e = .index ∧ NoPlace o b.stack ∧ m = (v.mach b o c).onStack m.br.stack) →
        (Fault args b.stack e m.br.stack ∨ (e = .index ∧ NoPlace o b.stack)) ∧ m.br.line = some i ∧ m.br.frames = b.frames ∧ m.br.name = b.name := by
      intro hd
      have same : m = (v.mach b o c).onStack m.br.stack := by
        rcases hd with ⟨-, h⟩ | ⟨-, -, h⟩ <;> exact h
      refine ⟨?_, ?_, ?_, ?_⟩
      rotate_left
      · rw [same]; exact hs.line
      · rw [same]; rfl
      · rw [same]; rfl
      · rcases hd with ⟨h1, -⟩ | ⟨h1, h2, -⟩
        · have := h1.fault
          rw [List.reverse_reverse] at this
          exact .inl this
        · exact .inr ⟨h1, h2⟩
    apply done
    cases ht with
    | table h1 h2 h3 => exact .inl (executeOp_cause v h1 hr h2 h3 _ hv.scratch _ _ hx)
    | instead h1 => exact .inl (instead_cause v h1 _ hv.scratch _ _ hx)
    | stores => exact cause_stores v hv.scratch hx
    | bury n => exact cause_bury v n hx
    | dig n =>
      obtain ⟨h1, h2, h3⟩ := cause_dig v n hr hv.scratch hx
      exact .inr ⟨h1, h2, by rw [h3]; rfl⟩

/-- The reason is determined by the stack. -/
theorem C127_unique {args : List StackType} {s r r' : List VmValue} {e e' : VmErr} (h : Fault args s e r) (h' : Fault args s e' r') :
    e = e' ∧ r = r' ∧ ¬ StackFits args s := by
  obtain ⟨n, t, h1, h2, h3, h4, h5⟩ := h
  obtain ⟨n', t', h1', h2', h3', h4', h5'⟩ := h'
  have hlt : n < args.length := by
    have := (List.getElem?_eq_some_iff.1 h1).1
    simpa using this
  have hn : n = n' := by
    rcases Nat.lt_trichotomy n n' with hlt | heq | hgt
    · rcases h5 with ⟨a, -⟩ | ⟨x, a, b, -⟩
      · omega
      · exact absurd (h4' n t x hlt h1 a) b
    · exact heq
    · rcases h5' with ⟨a, -⟩ | ⟨x, a, b, -⟩
      · omega
      · exact absurd (h4 n' t' x hgt h1' a) b
  subst hn
  rw [h1] at h1'
  cases h1'
  refine ⟨?_, h3.trans h3'.symm, ?_⟩
  · rcases h5 with ⟨a, b⟩ | ⟨x, a, b, c⟩ <;> rcases h5' with ⟨a', b'⟩ | ⟨x', a', b', c'⟩
    · rw [b, b']
    · have := (List.getElem?_eq_some_iff.1 a').1; omega
    · have := (List.getElem?_eq_some_iff.1 a).1; omega
    · rw [a] at a'; cases a'; rw [c, c']
  · rintro ⟨f1, f2⟩
    rcases h5 with ⟨a, -⟩ | ⟨x, a, b, -⟩
    · omega
    · exact b (f2 n t x h1 a)

theorem complaint_text {e : VmErr} {text : Bytes} (runtime : Bytes) (h : Complaint e text) : e.text runtime = text := by
  have hw : ∀ t : StackType, t.text = typeWord t := by intro t; cases t <;> rfl
  cases h with
  | missing t => show _ ++ t.text = _; rw [hw]
  | wrong t u => show _ ++ t.text ++ _ ++ u.text = _; rw [hw, hw]

/-- The event that tells of an error describes it. -/
theorem described (name text : Bytes) (n : Nat) (t : Option Nat) (hits : List Nat) :
    WireSpec.IsObj (fun ms => WireSpec.Has ms b!"body" (WireSpec.IsObj fun bs =>
      WireSpec.Has bs b!"description" (WireSpec.IsStr (b!"Error: " ++ text))))
      (DapWire.sentOut name text { seq := n, response := none, body := .stopped .exception t hits }) := by
  refine ⟨_, rfl, WireSpec.has_find (by decide) rfl ⟨_, rfl, ?_⟩⟩
  have hn : Wire.nonempty b!"description" (b!"Error: " ++ text) = [(b!"description", .str (b!"Error: " ++ text))] := by
    unfold Wire.nonempty; rw [if_neg (by simp)]
  rw [hn]
  by_cases h2 : hits = [] <;> cases t <;> simp only [h2, if_true, if_false] <;> exact WireSpec.has_find (by decide) rfl rfl

/-- An exception is told of only if the machine is left with an error. -/
theorem exception_error {env : Env} {d : Dap.Dbg} {m : Dap.Msg} {r : Dap.Outcome} {o : Dap.Sent} {t : Option Nat} {hits : List Nat}
    (h : Dap.Handles env d m r) (ho : o ∈ r.outs) (hb : o.body = .stopped .exception t hits) :
    o.response = none ∧ ∃ d' mc e, r.next = some d' ∧ d'.vm = some mc ∧ mc.tvm.error = some e := by
  have both : ∀ {d1 : Dap.Dbg} {seq : Int} {b1 b2 : Dap.Payload}, r = d1.replyNotify seq b1 b2 →
      (∀ t hs, b1 ≠ .stopped .exception t hs) → (∀ t hs, b2 = .stopped .exception t hs → ∃ mc e, d1.vm = some mc ∧ mc.tvm.error = some e) →
      o.response = none ∧ ∃ d' mc e, r.next = some d' ∧ d'.vm = some mc ∧ mc.tvm.error = some e := by
    rintro d1 seq b1 b2 rfl h1 h2
    simp only [Dap.Dbg.replyNotify, List.mem_cons, List.not_mem_nil, or_false] at ho
    rcases ho with rfl | rfl
    · exact absurd hb (h1 t hits)
    · obtain ⟨mc, e, h3, h4⟩ := h2 t hits hb
      exact ⟨rfl, _, mc, e, rfl, h3, h4⟩
  have one : ∀ {d1 : Dap.Dbg} {seq : Int} {b1 : Dap.Payload}, r.outs = [(d1.reply seq b1).2] → (∀ t hs, b1 ≠ .stopped .exception t hs) → False := by
    intro d1 seq b1 h1 h2
    rw [h1] at ho
    rw [List.mem_singleton.1 ho] at hb
    exact h2 t hits hb
  cases h with
  | continue_ a hc hm hrun hcont =>
    cases hcont with
    | failed e he => exact both rfl (by simp) fun _ _ _ => ⟨_, e, rfl, he⟩
    | crashed => exact (one rfl (by simp)).elim
    | hit => exact both rfl (by simp) (by simp)
    | ended => exact both rfl (by simp) (by simp)
    | running => exact (one rfl (by simp)).elim
  | plain _ hh =>
    unfold Dap.Dbg.handle at hh
    obtain ⟨seq, cmd⟩ := m
    dsimp only at hh
    cases cmd with
    | «initialize» a =>
      cases a with
      | none => cases hh; cases ho
      | some p => cases hh; exact both rfl (by simp) (by simp)
    | launch n s =>
      cases n with
      | none => cases hh; cases ho
      | some n =>
        cases s with
        | none => cases hh; cases ho
        | some s =>
          dsimp only at hh
          split at hh
          · cases hh; cases ho
          · cases hh
            simp only [List.mem_cons, List.not_mem_nil, or_false] at ho
            rcases ho with rfl | rfl | rfl <;> simp [Dap.Dbg.reply, Dap.Dbg.notify] at hb
    | plain n =>
      dsimp only at hh
      split at hh
      · cases hh; exact (one rfl (by simp)).elim
      · cases hh; cases ho
    | setBreakpoints a =>
      dsimp only at hh
      repeat' split at hh
      · cases hh; exact (one rfl (by simp)).elim
      · cases hh; cases ho
      · cases hh; cases ho
      · cases hh; exact (one rfl (by simp)).elim
    | threads => cases hh; exact (one rfl (by simp)).elim
    | pause =>
      dsimp only at hh
      split at hh
      · cases hh; exact (one rfl (by simp)).elim
      · cases hh; exact both rfl (by simp) (by simp)
    | continue_ a => cases hh; exact (one rfl (by simp)).elim
    | next a =>
      dsimp only at hh
      split at hh
      · cases hh; exact (one rfl (by simp)).elim
      · split at hh
        · cases hh; exact (one rfl (by simp)).elim
        · split at hh
          · cases hh
          · split at hh
            · rename_i e he
              cases hh
              exact both rfl (by simp) fun _ _ _ => ⟨_, e, rfl, he⟩
            · cases hh; exact both rfl (by simp) (by simp)
    | «variables» a =>
      cases a with
      | none => cases hh; cases ho
      | some a =>
        dsimp only at hh
        split at hh
        · cases hh; cases ho
        · cases hh; exact (one rfl (by simp)).elim
    | scopes a =>
      dsimp only at hh
      split at hh <;> cases hh <;> first | cases ho; done | exact (one rfl (by simp)).elim
    | stackTrace a =>
      dsimp only at hh
      split at hh <;> cases hh <;> first | cases ho; done | exact (one rfl (by simp)).elim
    | other => cases hh; cases ho

/-- **C127** The event the debugger sends when an instruction failed describes the machine's error. -/
theorem C127_told {env : Env} {d : Dap.Dbg} {m : Dap.Msg} {r : Dap.Outcome} {o : Dap.Sent} {t : Option Nat} {hits : List Nat}
    (h : Dap.Handles env d m r) (ho : o ∈ r.outs) (hb : o.body = .stopped .exception t hits) (name runtime : Bytes) :
    ∃ d' mc e, r.next = some d' ∧ d'.vm = some mc ∧ mc.tvm.error = some e ∧
      ∀ text, Complaint e text → WireSpec.IsObj (fun ms => WireSpec.Has ms b!"body" (WireSpec.IsObj fun bs =>
        WireSpec.Has bs b!"description" (WireSpec.IsStr (b!"Error: " ++ text))))
        (DapWire.sentOut name (Dap.errorText runtime r.next) o) := by
  obtain ⟨h1, d', mc, e, h2, h3, h4⟩ := exception_error h ho hb
  refine ⟨d', mc, e, h2, h3, h4, fun text ht => ?_⟩
  have e1 : Dap.errorText runtime r.next = text := by
    unfold Dap.errorText
    rw [h2]
    simp only [Option.bind_some, h3, h4]
    exact complaint_text runtime ht
  rw [e1]
  obtain ⟨seq, resp, body⟩ := o
  dsimp only at h1 hb
  subst h1
  subst hb
  exact described name text seq t hits

/-- The error of a step from the state after `n` steps, and the stacks before and after. -/
def failure (l : List Op) (version n : Nat) : Option (Op × Option VmErr × List VmValue × List VmValue) := do
  let v ← after l version n
  let (k, b, _, o) ← selection v
  let w ← v.step
  let b' ← w.branches[k]?
  pure (o, w.error, b.stack, b'.stack)

theorem failure_step {l : List Op} {version n : Nat} {o : Op} {e : Option VmErr} {s s' : List VmValue}
    (h : failure l version n = some (o, e, s, s')) : ∃ v k b i w b', Session l version v ∧ Selected v k b i o ∧
      v.step = some w ∧ w.branches[k]? = some b' ∧ w.error = e ∧ b.stack = s ∧ b'.stack = s' := by
  simp only [failure, bind, Option.bind_eq_some_iff] at h
  obtain ⟨v, h1, ⟨k, b, i, o'⟩, h2, w, h3, b', h4, h5⟩ := h
  cases h5
  exact ⟨v, k, b, i, w, b', after_session h1, selection_selected h2, h3, h4, rfl, rfl, rfl⟩

/-- `+` fails because of the second value; the first is gone. -/
example : ∃ v k b i w b', Session [.byte b!"x", .int 1, .plain .plus] 8 v ∧ Selected v k b i (.plain .plus) ∧
    Takes (.plain .plus) [.uint64, .uint64] ∧ v.step = some w ∧ w.branches[k]? = some b' ∧
    w.error = some (.wrongType .uint64 .bytes) ∧ b'.stack = [⟨.bytes, .bytes b!"x"⟩] := by
  obtain ⟨v, k, b, i, w, b', h1, h2, h3, h4, h5, -, h6⟩ := failure_step (n := 2) (l := [.byte b!"x", .int 1, .plain .plus])
    (version := 8) (o := .plain .plus) (e := some (.wrongType .uint64 .bytes)) (s := [⟨.uint64, .uint 1⟩, ⟨.bytes, .bytes b!"x"⟩])
    (s' := [⟨.bytes, .bytes b!"x"⟩]) (by decide +kernel)
  exact ⟨v, k, b, i, w, b', h1, h2, .table rfl (by rintro ⟨⟩) (by simp), h3, h4, h5, h6⟩

/-- A missing value, an instruction that takes something else than it should, and places that do not exist. -/
example : failure [.int 1, .plain .plus] 8 1 = some (.plain .plus, some (.emptyStack .uint64), [⟨.uint64, .uint 1⟩], []) ∧
    failure [.int 1, .plain .bitlen] 8 1 = some (.plain .bitlen, some (.wrongType .bytes .uint64), [⟨.uint64, .uint 1⟩], [⟨.uint64, .uint 1⟩]) ∧
    failure [.int 1, .u8 .bury 1] 8 1 = some (.u8 .bury 1, some .index, [⟨.uint64, .uint 1⟩], []) ∧
    failure [.u8 .dig 1] 8 0 = some (.u8 .dig 1, some .index, [], []) ∧
    failure [.field .base64Decode 0] 8 0 = some (.field .base64Decode 0, some .index, [], []) :=
  ⟨by decide +kernel, by decide +kernel, by decide +kernel, by decide +kernel, by decide +kernel⟩

/-- A client that steps into the failing `+`. -/
def failingMsgs : List Dap.Msg :=
  [⟨1, .initialize (some (some true, some true))⟩,
   ⟨2, .launch (some b!"a.teal") (some b!"#pragma version 8\nbyte 0x78\nint 1\n+")⟩, ⟨3, .next (some 0)⟩, ⟨4, .next (some 0)⟩]

/-- The description the client sees. -/
example : ∃ d r o, Dap.Handles sampleEnv d ⟨5, .next (some 0)⟩ r ∧ o ∈ r.outs ∧ o.body = .stopped .exception none [] ∧
    Dap.errorText [] r.next = b!"unexpected data type on stack - expected: uint64, got: bytes" := by
  let d : Dap.Dbg := ((sendAll sampleEnv Dap.Dbg.new failingMsgs).getD ([], Dap.Dbg.new)).2
  have h : (match d.handle sampleEnv ⟨5, .next (some 0)⟩ with
    | some r => decide (Dap.errorText [] r.next = b!"unexpected data type on stack - expected: uint64, got: bytes") &&
        (match r.outs with
          | [_, o] => decide (o.body = .stopped .exception none [])
          | _ => false)
    | none => false) = true := by decide +kernel
  split at h
  · rename_i r hr
    simp only [Bool.and_eq_true, decide_eq_true_eq] at h
    obtain ⟨h1, h2⟩ := h
    split at h2
    · rename_i o1 o ho
      exact ⟨d, r, o, .plain (.inr (by simp)) hr, by rw [ho]; simp, of_decide_eq_true h2, h1⟩
    · cases h2
  · cases h

end Teal.Props
