import Verif.Spec.Dap
import Verif.Props.Vm
import Verif.Props.VmFlow
import Verif.Props.Process

/-!
# C51, C52 and other properties of the debug adapter
-/

namespace Teal.Props

open Teal Teal.Spec Teal.Dap

/-! ## C52 -/

/-- What the messages sent while handling one are numbered. -/
def Numbered (n : Nat) (r : Outcome) : Prop :=
  r.outs.map (·.seq) = List.range' (n + 1) r.outs.length ∧ ∀ d', r.next = some d' → d'.id = n + r.outs.length

theorem numbered_none (d : Dbg) : Numbered d.id { outs := [], next := none } :=
  ⟨rfl, fun _ h => by cases h⟩

theorem numbered_same (d : Dbg) : Numbered d.id { outs := [], next := some d } :=
  ⟨rfl, fun _ h => by cases h; rfl⟩

theorem numbered_replies (d : Dbg) (seq : Int) (b : Payload) : Numbered d.id (d.replies seq b) :=
  ⟨rfl, fun _ h => by cases h; rfl⟩

theorem numbered_replyNotify (d : Dbg) (seq : Int) (b e : Payload) : Numbered d.id (d.replyNotify seq b e) :=
  ⟨rfl, fun _ h => by cases h; rfl⟩

theorem numbered_replyPanic (d : Dbg) (seq : Int) (b : Payload) : Numbered d.id (d.replyPanic seq b) :=
  ⟨rfl, fun _ h => by cases h⟩

theorem numbered_handle {env : Env} {d : Dbg} {m : Msg} {r : Outcome} (h : d.handle env m = some r) : Numbered d.id r := by
  obtain ⟨seq, cmd⟩ := m
  unfold Dbg.handle at h
  dsimp only at h
  repeat' split at h
  all_goals first
    | (cases h; done)
    | (cases h; first
        | exact numbered_none d | exact numbered_same d
        | exact numbered_replies _ _ _ | exact numbered_replyNotify _ _ _ _ | exact numbered_replyPanic _ _ _
        | (refine ⟨rfl, fun _ h => ?_⟩; cases h; rfl))

theorem numbered_handles {env : Env} {d : Dbg} {m : Msg} {r : Outcome} (h : Handles env d m r) : Numbered d.id r := by
  cases h with
  | plain _ h => exact numbered_handle h
  | continue_ a _ _ _ h =>
    cases h with
    | failed => exact numbered_replyNotify _ _ _ _
    | crashed => exact numbered_replyPanic _ _ _
    | hit => exact numbered_replyNotify _ _ _ _
    | ended => exact numbered_replyNotify _ _ _ _
    | running => exact numbered_replies _ _ _

theorem sends_numbered {env : Env} {ms : List Msg} {outs : List Sent} {d : Option Dbg} (h : Sends env ms outs d) :
    outs.map (·.seq) = List.range' 1 outs.length ∧ ∀ d', d = some d' → d'.id = outs.length := by
  induction h with
  | new => exact ⟨rfl, fun _ h => by cases h; rfl⟩
  | @msg ms outs d m r _ hh ih =>
    have h1 := numbered_handles hh
    rw [ih.2 d rfl] at h1
    constructor
    · rw [List.map_append, ih.1, h1.1, List.length_append, Nat.add_comm outs.length 1, List.range'_append_1]
    · intro d' hd
      rw [h1.2 d' hd, List.length_append]

/-- C52: the messages the adapter sends are numbered 1, 2, 3, ... over the whole session. -/
theorem C52 {env : Env} {ms : List Msg} {outs : List Sent} {d : Option Dbg} (h : Sends env ms outs d) :
    ∀ (k : Nat) (o : Sent), outs[k]? = some o → o.seq = k + 1 := by
  intro k o ho
  have h1 := (sends_numbered h).1
  have h2 : (outs.map (·.seq))[k]? = some o.seq := by rw [List.getElem?_map, ho]; rfl
  have hlt : k < outs.length := (List.getElem?_eq_some_iff.1 ho).1
  rw [h1, List.getElem?_range' hlt] at h2
  injection h2 with h2
  omega

/-- C52: the numbers strictly increase. -/
theorem C52_increase {env : Env} {ms : List Msg} {outs : List Sent} {d : Option Dbg} (h : Sends env ms outs d) :
    (outs.map (·.seq)).Pairwise (· < ·) := by
  rw [(sends_numbered h).1]
  exact List.pairwise_lt_range'

/-! ## The machine of the adapter -/

theorem switchTo_session {l : List Op} {version : Nat} {v : Vm} (h : Session l version v) (id : Int) :
    Session l version (switchTo v id) := by
  unfold switchTo
  split
  · exact .switch _ h
  · exact h

/-- The machine of the state is one for the program `src` of the file `name`. -/
def Debugs (env : Env) (d : Dbg) (x : Option (Bytes × Bytes)) : Prop :=
  match d.vm, x with
  | none, none => True
  | some mc, some (name, src) => mc.name = name ∧ ∃ res, process env src = some res ∧
      Session res.listing res.version mc.tvm
  | _, _ => False

theorem handle_debugs {env : Env} {d d' : Dbg} {m : Msg} {r : Outcome} {x : Option (Bytes × Bytes)}
    (hd : Debugs env d x) (h : d.handle env m = some r) (hr : r.next = some d') :
    Debugs env d' ((launchOf m).or x) := by
  have keep : ∀ {e : Dbg}, e.vm = d.vm → Debugs env e x := by
    intro e he
    unfold Debugs at hd ⊢
    rw [he]
    exact hd
  have step : ∀ {mc : Machine} {w : Vm} {e : Dbg}, d.vm = some mc →
      (∀ l version, Session l version mc.tvm → Session l version w) → e.vm = some { mc with tvm := w } →
      Debugs env e x := by
    intro mc w e h1 h2 h3
    unfold Debugs at hd ⊢
    rw [h1] at hd
    rw [h3]
    revert hd
    cases x with
    | none => exact id
    | some x =>
      rintro ⟨g1, res, g2, g3⟩
      exact ⟨g1, res, g2, h2 _ _ g3⟩
  obtain ⟨seq, cmd⟩ := m
  unfold Dbg.handle at h
  dsimp only at h
  cases cmd with
  | launch name src =>
    cases name with
    | none => cases h; cases hr
    | some name =>
      cases src with
      | none => cases h; cases hr; exact hd
      | some src =>
        dsimp only at h
        split at h
        · cases h; cases hr
        · rename_i res hres
          cases h
          cases hr
          exact ⟨rfl, res, hres, .new⟩
  | «initialize» args =>
    rcases args with _ | ⟨a, b⟩
    · cases h; cases hr
    · cases h; cases hr; exact keep rfl
  | plain name =>
    dsimp only at h
    split at h <;> cases h <;> cases hr <;> exact keep rfl
  | setBreakpoints args =>
    dsimp only at h
    repeat' split at h
    · cases h; cases hr; exact keep rfl
    · cases h; cases hr
    · cases h; cases hr
    · have hvm := ‹d.vm = some _›
      have hw := ‹Vm.setBreakpoints _ _ = some _›
      cases h; cases hr
      exact step hvm (fun _ _ hs => .breakpoints _ hs hw) rfl
  | threads => cases h; cases hr; exact keep rfl
  | pause =>
    dsimp only at h
    split at h
    · cases h; cases hr
    · cases h; cases hr; exact keep rfl
  | continue_ a => cases h; cases hr; exact keep rfl
  | next args =>
    dsimp only at h
    repeat' split at h
    · cases h; cases hr
    · cases h; cases hr
    · cases h
    · have hvm := ‹d.vm = some _›
      have hw := ‹Vm.step _ = some _›
      cases h; cases hr
      exact step hvm (fun _ _ hs => .step (switchTo_session hs _) hw) rfl
    · have hvm := ‹d.vm = some _›
      have hw := ‹Vm.step _ = some _›
      cases h; cases hr
      exact step hvm (fun _ _ hs => .step (switchTo_session hs _) hw) rfl
  | «variables» args =>
    cases args with
    | none => cases h; cases hr
    | some a =>
      dsimp only at h
      split at h
      · cases h; cases hr
      · cases h; cases hr; exact keep rfl
  | scopes args =>
    dsimp only at h
    split at h <;> cases h <;> cases hr <;> exact keep rfl
  | stackTrace args =>
    dsimp only at h
    split at h <;> cases h <;> cases hr <;> exact keep rfl
  | other => cases h; cases hr; exact keep rfl

theorem handles_debugs {env : Env} {d d' : Dbg} {m : Msg} {r : Outcome} {x : Option (Bytes × Bytes)}
    (hd : Debugs env d x) (h : Handles env d m r) (hr : r.next = some d') :
    Debugs env d' ((launchOf m).or x) := by
  cases h with
  | plain _ h => exact handle_debugs hd h hr
  | @continue_ mc w a hc hvm hw h =>
    have hl : launchOf m = none := by
      obtain ⟨seq, cmd⟩ := m
      dsimp only at hc
      subst hc
      rfl
    rw [hl]
    have step : ∀ {e : Dbg}, e.vm = some { mc with tvm := w } → Debugs env e x := by
      intro e h3
      unfold Debugs at hd ⊢
      rw [hvm] at hd
      rw [h3]
      revert hd
      cases x with
      | none => exact id
      | some x =>
        rintro ⟨g1, res, g2, g3⟩
        exact ⟨g1, res, g2, .run g3 hw⟩
    cases h <;> cases hr <;> exact step rfl

theorem sends_debugs {env : Env} {ms : List Msg} {outs : List Sent} {o : Option Dbg} (h : Sends env ms outs o) :
    ∀ d, o = some d → Debugs env d (ms.filterMap launchOf).getLast? := by
  induction h with
  | new => intro d hd; cases hd; trivial
  | @msg ms outs d m r _ hh ih =>
    intro d' hd
    have := handles_debugs (ih d rfl) hh hd
    rw [List.filterMap_append]
    cases hl : launchOf m with
    | none =>
      rw [hl] at this
      have : List.filterMap launchOf [m] = [] := by simp [hl]
      rw [this, List.append_nil]
      assumption
    | some x =>
      rw [hl] at this
      have h2 : List.filterMap launchOf [m] = [x] := by simp [hl]
      rw [h2, List.getLast?_concat]
      exact this

/-- C56: the adapter debugs the file launched last, as it was then: there is a machine exactly if a
file was launched, and it is in a state of a session with the machine for that file's text. -/
theorem C56 {env : Env} {ms : List Msg} {outs : List Sent} {d : Dbg} (h : Sends env ms outs (some d)) :
    (d.vm = none ↔ ms.filterMap launchOf = []) ∧
    ∀ mc, d.vm = some mc → ∃ src res, (ms.filterMap launchOf).getLast? = some (mc.name, src) ∧
      process env src = some res ∧ Session res.listing res.version mc.tvm := by
  have := sends_debugs h d rfl
  unfold Debugs at this
  split at this
  · rename_i h1 h2
    rw [h1]
    exact ⟨⟨fun _ => List.getLast?_eq_none_iff.1 h2, fun _ => rfl⟩, fun mc h => by cases h⟩
  · rename_i mc name src h1 h2
    obtain ⟨g1, res, g2, g3⟩ := this
    refine ⟨⟨fun hc => (by rw [h1] at hc; cases hc), fun hc => (by rw [hc] at h2; cases h2)⟩, ?_⟩
    intro mc' hmc
    rw [h1] at hmc
    cases hmc
    exact ⟨src, res, by rw [h2, g1], g2, g3⟩
  · cases this

/-! ## C51 -/

theorem varsLoop_other {v : Vm} {a : VarArgs} {f i : Int} : ∀ {l : List VmBranch}, (∀ b ∈ l, (b.id : Int) ≠ f) →
    varsLoop v a f i l = some []
  | [], _ => rfl
  | b :: bs, h => by
    rw [varsLoop, if_neg (h b (List.mem_cons_self ..))]
    exact varsLoop_other fun b' hb' => h b' (List.mem_cons_of_mem _ hb')

theorem varsLoop_one {v : Vm} {a : VarArgs} {i : Int} {b : VmBranch} : ∀ {l : List VmBranch}, (l.map (·.id)).Nodup →
    b ∈ l → varsLoop v a (b.id : Int) i l = branchVars v b a i
  | c :: cs, hn, hb => by
    rw [List.map_cons, List.nodup_cons] at hn
    rw [varsLoop]
    rcases List.mem_cons.1 hb with rfl | hb
    · rw [if_pos rfl, varsLoop_other]
      · cases branchVars v b a i <;> simp
      · intro b' hb' he
        exact hn.1 (List.mem_map.2 ⟨b', hb', by omega⟩)
    · have : c.id ≠ b.id := fun he => hn.1 (List.mem_map.2 ⟨b, hb, he.symm⟩)
      rw [if_neg (by omega)]
      exact varsLoop_one hn.2 hb

theorem filter_one {b : VmBranch} : ∀ {l : List VmBranch}, (l.map (·.id)).Nodup → b ∈ l →
    (l.filter fun c => (c.id : Int) = (b.id : Int)) = [b]
  | c :: cs, hn, hb => by
    rw [List.map_cons, List.nodup_cons] at hn
    rcases List.mem_cons.1 hb with rfl | hb
    · rw [List.filter_cons_of_pos (by simp), List.filter_eq_nil_iff.2]
      intro b' hb'
      simp only [decide_eq_true_eq]
      intro he
      exact hn.1 (List.mem_map.2 ⟨b', hb', by omega⟩)
    · have : c.id ≠ b.id := fun he => hn.1 (List.mem_map.2 ⟨b, hb, he.symm⟩)
      rw [List.filter_cons_of_neg (by simp only [decide_eq_true_eq]; omega)]
      exact filter_one hn.2 hb

theorem mem_slots {α : Type} {l : List α} {s e : Int} (h0 : 0 ≤ s) (h1 : e ≤ l.length) :
    ∃ vs, slots l s e = some vs ∧ ∀ (n : Nat) (x : α), (n, x) ∈ vs ↔ l[n]? = some x ∧ s ≤ n ∧ n < e := by
  unfold slots
  by_cases h : e ≤ s
  · rw [if_pos h]
    refine ⟨[], rfl, fun n x => ⟨fun h => by simp at h, fun ⟨_, h2, h3⟩ => by omega⟩⟩
  · rw [if_neg h, if_neg (by omega), if_neg (by omega)]
    refine ⟨_, rfl, ?_⟩
    intro n x
    simp only [List.mem_map, Prod.mk.injEq]
    constructor
    · rintro ⟨⟨y, k⟩, hp, rfl, rfl⟩
      obtain ⟨j, hj⟩ := List.getElem?_of_mem hp
      rw [List.getElem?_take] at hj
      split at hj
      · rw [List.getElem?_drop, List.getElem?_zipIdx] at hj
        simp only [Nat.zero_add, Option.map_eq_some_iff, Prod.mk.injEq] at hj
        obtain ⟨z, hz, rfl, rfl⟩ := hj
        exact ⟨hz, by omega, by omega⟩
      · cases hj
    · rintro ⟨hx, h2, h3⟩
      refine ⟨(x, n), ?_, rfl, rfl⟩
      apply List.mem_of_getElem? (i := n - s.toNat)
      rw [List.getElem?_take, if_pos (by omega), List.getElem?_drop, List.getElem?_zipIdx]
      have : s.toNat + (n - s.toNat) = n := by omega
      rw [this, hx]
      simp

/-- The number of a scope within its branch. -/
def kindNo : ScopeKind → Int
  | .state => 0
  | .stack => 1
  | .scratch => 2
  | .trace => 3

theorem branchVars_entries (v : Vm) (b : VmBranch) (k : ScopeKind) (ref : Int) :
    ∃ vs, branchVars v b ⟨ref, none, none⟩ (kindNo k) = some vs ∧ ∀ n x, (n, x) ∈ vs ↔ Entry v b k n x := by
  cases k with
  | state =>
    refine ⟨_, rfl, ?_⟩
    intro n x
    simp only [List.mem_singleton, Prod.mk.injEq]
    exact ⟨fun ⟨h1, h2⟩ => by subst h1 h2; exact .budget, fun h => by cases h; exact ⟨rfl, rfl⟩⟩
  | stack =>
    refine ⟨_, rfl, ?_⟩
    intro n x
    simp only [List.mem_map, Prod.mk.injEq]
    constructor
    · rintro ⟨⟨y, j⟩, hp, h1, h2⟩
      dsimp only at h1 h2
      subst h1 h2
      have := List.mem_zipIdx_iff_getElem?.1 hp
      have hlt := (List.getElem?_eq_some_iff.1 this).1
      dsimp only at this hlt
      refine .stack ?_
      rw [List.getElem?_reverse (by omega)]
      have e : b.stack.length - 1 - (b.stack.length - 1 - j) = j := by omega
      rw [e]
      exact this
    · intro h
      cases h with
      | @stack _ y h =>
        have hlt := (List.getElem?_eq_some_iff.1 h).1
        rw [List.length_reverse] at hlt
        rw [List.getElem?_reverse hlt] at h
        exact ⟨(y, b.stack.length - 1 - n), List.mem_zipIdx_iff_getElem?.2 h, by dsimp only; omega, rfl⟩
  | scratch =>
    obtain ⟨vs, h1, h2⟩ := mem_slots (l := v.scratch) (s := 0) (e := v.scratch.length) (Int.le_refl _) (Int.le_refl _)
    refine ⟨(vs.filter fun p => p.2.t != .none).map fun p => (p.1, .value p.2), ?_, ?_⟩
    · have : branchVars v b ⟨ref, none, none⟩ (kindNo .scratch) = (slots v.scratch 0 v.scratch.length).map fun vs =>
        (vs.filter fun p => p.2.t != .none).map fun p => (p.1, .value p.2) := rfl
      rw [this, h1]; rfl
    · intro n x
      simp only [List.mem_map, List.mem_filter, Prod.mk.injEq, bne_iff_ne]
      constructor
      · rintro ⟨⟨j, y⟩, ⟨h3, h4⟩, h5, h6⟩
        dsimp only at h4 h5 h6
        subst h5 h6
        exact .scratch ((h2 _ _).1 h3).1 h4
      · intro h
        cases h with
        | @scratch _ y h h4 =>
          have hlt := (List.getElem?_eq_some_iff.1 h).1
          exact ⟨(n, y), ⟨(h2 _ _).2 ⟨h, by omega, by omega⟩, h4⟩, rfl, rfl⟩
  | trace =>
    obtain ⟨vs, h1, h2⟩ := mem_slots (l := b.trace) (s := 0) (e := b.trace.length) (Int.le_refl _) (Int.le_refl _)
    refine ⟨vs.map fun p => (p.1, .op p.2), ?_, ?_⟩
    · have : branchVars v b ⟨ref, none, none⟩ (kindNo .trace) = (slots b.trace 0 b.trace.length).map fun vs =>
        vs.map fun p => (p.1, .op p.2) := rfl
      rw [this, h1]; rfl
    · intro n x
      simp only [List.mem_map, Prod.mk.injEq]
      constructor
      · rintro ⟨⟨j, y⟩, h3, h5, h6⟩
        dsimp only at h5 h6
        subst h5 h6
        exact .trace ((h2 _ _).1 h3).1
      · intro h
        cases h with
        | @trace _ y h =>
          have hlt := (List.getElem?_eq_some_iff.1 h).1
          exact ⟨(n, y), (h2 _ _).2 ⟨h, by omega, by omega⟩, rfl, rfl⟩

theorem responds_of {env : Env} {d : Dbg} {cmd : Command} {body : Payload} (hc : ∀ a, cmd ≠ .continue_ a)
    (h : ∀ seq, d.handle env ⟨seq, cmd⟩ = some (d.replies seq body)) : Responds env d cmd body := by
  intro seq
  refine ⟨⟨_, .plain (.inr hc) (h seq)⟩, ?_⟩
  intro r hr
  cases hr with
  | plain _ hr =>
    rw [h seq] at hr
    cases hr
    exact ⟨_, _, rfl, rfl, rfl, rfl⟩
  | continue_ a hc' => exact absurd hc' (hc a)

theorem sends_ids {env : Env} {ms : List Msg} {outs : List Sent} {d : Dbg} {mc : Machine}
    (h : Sends env ms outs (some d)) (hm : d.vm = some mc) : (mc.tvm.branches.map (·.id)).Nodup := by
  obtain ⟨src, res, -, -, hs⟩ := (C56 h).2 mc hm
  exact C41_unique hs

/-- The scope of kind `k` of a branch. -/
def scopeOf (b : VmBranch) : ScopeKind → Scope
  | .state => { name := b!"State", ref := 1 + 10 * b.id, indexed := none }
  | .stack => { name := b!"Stack", ref := 2 + 10 * b.id, indexed := some b.stack.length }
  | .scratch => { name := b!"Scratch", ref := 3 + 10 * b.id, indexed := some 256 }
  | .trace => { name := b!"Trace", ref := 4 + 10 * b.id, indexed := some b.trace.length }

/-- C51: in every state of every session, asking for the scopes of a branch lists each kind of scope
once, and the reference given for it shows exactly the entries of that scope of that branch. -/
theorem C51 {env : Env} {ms : List Msg} {outs : List Sent} {d : Dbg} {mc : Machine} {b : VmBranch}
    (h : Sends env ms outs (some d)) (hm : d.vm = some mc) (hb : b ∈ mc.tvm.branches) :
    ∃ ss, Responds env d (.scopes (some b.id)) (.scopes ss) ∧ ∀ k : ScopeKind,
      ∃ s ∈ ss, s.name = k.title ∧ (∀ s' ∈ ss, s'.name = k.title → s' = s) ∧
        ∃ vs, Responds env d (.variables (some ⟨s.ref, none, none⟩)) (.variables vs) ∧
          ∀ n x, (n, x) ∈ vs ↔ Entry mc.tvm b k n x := by
  have hn := sends_ids h hm
  refine ⟨branchScopes b, ?_, ?_⟩
  · apply responds_of (by simp)
    intro seq
    unfold Dbg.handle
    simp only [hm]
    unfold scopes
    simp only
    rw [filter_one hn hb]
    simp
  · intro k
    refine ⟨scopeOf b k, by cases k <;> simp [branchScopes, scopeOf], by cases k <;> rfl, ?_, ?_⟩
    · intro s' hs' ht
      simp only [branchScopes, List.mem_cons, List.not_mem_nil, or_false] at hs'
      rcases hs' with rfl | rfl | rfl | rfl <;> cases k <;> first | rfl | (simp [ScopeKind.title] at ht; done)
    · obtain ⟨vs, h1, h2⟩ := branchVars_entries mc.tvm b k (scopeOf b k).ref
      refine ⟨vs, ?_, h2⟩
      apply responds_of (by simp)
      intro seq
      have e : «variables» d.vm ⟨(scopeOf b k).ref, none, none⟩ = some vs := by
        unfold «variables»
        have hr : (scopeOf b k).ref = kindNo k + 1 + 10 * b.id := by cases k <;> rfl
        have hk : 0 ≤ kindNo k ∧ kindNo k < 10 := by cases k <;> decide
        rw [if_pos (by dsimp only; omega), hm]
        dsimp only
        have e1 : ((scopeOf b k).ref - 1) / 10 = b.id := by omega
        have e2 : ((scopeOf b k).ref - 1) % 10 = kindNo k := by omega
        rw [e1, e2, varsLoop_one hn hb]
        exact h1
      unfold Dbg.handle
      simp only [e]

/-- C51: different scopes have different references. -/
theorem C51_distinct {env : Env} {ms : List Msg} {outs : List Sent} {d : Dbg} {mc : Machine} {b b' : VmBranch}
    (h : Sends env ms outs (some d)) (hm : d.vm = some mc) (hb : b ∈ mc.tvm.branches) (hb' : b' ∈ mc.tvm.branches)
    {ss ss' : List Scope} (hs : Responds env d (.scopes (some b.id)) (.scopes ss))
    (hs' : Responds env d (.scopes (some b'.id)) (.scopes ss')) {s s' : Scope} (h1 : s ∈ ss) (h2 : s' ∈ ss')
    (he : s.ref = s'.ref) : s = s' ∧ b = b' := by
  have hn := sends_ids h hm
  have key : ∀ {b : VmBranch} {ss : List Scope}, b ∈ mc.tvm.branches → Responds env d (.scopes (some b.id)) (.scopes ss) →
      ss = branchScopes b := by
    intro b ss hb hs
    have hr : d.handle env ⟨0, .scopes (some b.id)⟩ = some (d.replies 0 (.scopes (branchScopes b))) := by
      unfold Dbg.handle
      simp only [hm]
      unfold scopes
      simp only
      rw [filter_one hn hb]
      simp
    obtain ⟨o, d', g1, -, g2, -⟩ := (hs 0).2 _ (.plain (.inr (by simp)) hr)
    cases g1
    cases g2
    rfl
  rw [key hb hs] at h1
  rw [key hb' hs'] at h2
  simp only [branchScopes, List.mem_cons, List.not_mem_nil, or_false] at h1 h2
  have hid : b.id = b'.id := by
    rcases h1 with rfl | rfl | rfl | rfl <;> rcases h2 with rfl | rfl | rfl | rfl <;> dsimp only at he <;> omega
  have hbb : b = b' := by
    have f1 := filter_one hn hb
    have f2 := filter_one hn hb'
    rw [hid, f2] at f1
    simpa using f1.symm
  subst hbb
  refine ⟨?_, rfl⟩
  rcases h1 with rfl | rfl | rfl | rfl <;> rcases h2 with rfl | rfl | rfl | rfl <;> dsimp only at he <;>
    first | rfl | omega

/-- C51: a window of the scratch space or of the trace shows the entries within it. -/
theorem C51_window {env : Env} {ms : List Msg} {outs : List Sent} {d : Dbg} {mc : Machine} {b : VmBranch}
    (h : Sends env ms outs (some d)) (hm : d.vm = some mc) (hb : b ∈ mc.tvm.branches) {k : ScopeKind}
    (hk : k = .scratch ∨ k = .trace) {ss : List Scope} {s : Scope}
    (hs : Responds env d (.scopes (some b.id)) (.scopes ss)) (h1 : s ∈ ss) (h2 : s.name = k.title)
    (start count : Nat) (hc : start + count ≤ mc.tvm.scratch.length) (hc' : start + count ≤ b.trace.length) :
    ∃ vs, Responds env d (.variables (some ⟨s.ref, some start, some count⟩)) (.variables vs) ∧
      ∀ n x, (n, x) ∈ vs ↔ Entry mc.tvm b k n x ∧ start ≤ n ∧ n < start + count := by
  have hn := sends_ids h hm
  have hss : ss = branchScopes b := by
    have hr : d.handle env ⟨0, .scopes (some b.id)⟩ = some (d.replies 0 (.scopes (branchScopes b))) := by
      unfold Dbg.handle
      simp only [hm]
      unfold scopes
      simp only
      rw [filter_one hn hb]
      simp
    obtain ⟨o, d', g1, -, g2, -⟩ := (hs 0).2 _ (.plain (.inr (by simp)) hr)
    cases g1
    cases g2
    rfl
  subst hss
  have hs : s = scopeOf b k := by
    simp only [branchScopes, List.mem_cons, List.not_mem_nil, or_false] at h1
    rcases h1 with rfl | rfl | rfl | rfl <;> rcases hk with rfl | rfl <;> first | rfl | (simp [ScopeKind.title] at h2; done)
  subst hs
  have main : ∃ vs, branchVars mc.tvm b ⟨(scopeOf b k).ref, some start, some count⟩ (kindNo k) = some vs ∧
      ∀ n x, (n, x) ∈ vs ↔ Entry mc.tvm b k n x ∧ start ≤ n ∧ n < start + count := by
    rcases hk with rfl | rfl
    · obtain ⟨vs, g1, g2⟩ := mem_slots (l := mc.tvm.scratch) (s := start) (e := start + count) (by omega) (by omega)
      refine ⟨(vs.filter fun p => p.2.t != .none).map fun p => (p.1, .value p.2), ?_, ?_⟩
      · have : branchVars mc.tvm b ⟨(scopeOf b .scratch).ref, some start, some count⟩ (kindNo .scratch) =
          (slots mc.tvm.scratch start (start + count)).map fun vs =>
          (vs.filter fun p => p.2.t != .none).map fun p => (p.1, .value p.2) := rfl
        rw [this, g1]; rfl
      · intro n x
        simp only [List.mem_map, List.mem_filter, Prod.mk.injEq, bne_iff_ne]
        constructor
        · rintro ⟨⟨j, y⟩, ⟨h3, h4⟩, h5, h6⟩
          dsimp only at h4 h5 h6
          subst h5 h6
          have := (g2 _ _).1 h3
          exact ⟨.scratch this.1 h4, by omega, by omega⟩
        · rintro ⟨h, g3, g4⟩
          cases h with
          | @scratch _ y h h4 => exact ⟨(n, y), ⟨(g2 _ _).2 ⟨h, by omega, by omega⟩, h4⟩, rfl, rfl⟩
    · obtain ⟨vs, g1, g2⟩ := mem_slots (l := b.trace) (s := start) (e := start + count) (by omega) (by omega)
      refine ⟨vs.map fun p => (p.1, .op p.2), ?_, ?_⟩
      · have : branchVars mc.tvm b ⟨(scopeOf b .trace).ref, some start, some count⟩ (kindNo .trace) =
          (slots b.trace start (start + count)).map fun vs => vs.map fun p => (p.1, .op p.2) := rfl
        rw [this, g1]; rfl
      · intro n x
        simp only [List.mem_map, Prod.mk.injEq]
        constructor
        · rintro ⟨⟨j, y⟩, h3, h5, h6⟩
          dsimp only at h5 h6
          subst h5 h6
          have := (g2 _ _).1 h3
          exact ⟨.trace this.1, by omega, by omega⟩
        · rintro ⟨h, g3, g4⟩
          cases h with
          | @trace _ y h => exact ⟨(n, y), (g2 _ _).2 ⟨h, by omega, by omega⟩, rfl, rfl⟩
  obtain ⟨vs, g1, g2⟩ := main
  refine ⟨vs, ?_, g2⟩
  apply responds_of (by simp)
  intro seq
  have e : «variables» d.vm ⟨(scopeOf b k).ref, some start, some count⟩ = some vs := by
    unfold «variables»
    have hr : (scopeOf b k).ref = kindNo k + 1 + 10 * b.id := by cases k <;> rfl
    have hk : 0 ≤ kindNo k ∧ kindNo k < 10 := by cases k <;> decide
    rw [if_pos (by dsimp only; omega), hm]
    dsimp only
    have e1 : ((scopeOf b k).ref - 1) / 10 = b.id := by omega
    have e2 : ((scopeOf b k).ref - 1) % 10 = kindNo k := by omega
    rw [e1, e2, varsLoop_one hn hb]
    exact g1
  unfold Dbg.handle
  simp only [e]

/-! ## C57 -/

/-- C57: a known request that does not crash the adapter gets exactly one response, as the first
message sent.  Missing: launching a file that cannot be read (`C57_false`). -/
theorem C57_partial {env : Env} {d : Dbg} {m : Msg} {r : Outcome} (h : Handles env d m r) (hk : KnownCommand m.cmd)
    (hl : ∀ name, m.cmd ≠ .launch (some name) none) (hn : r.next ≠ none) :
    ∃ o os, r.outs = o :: os ∧ o.response = some (m.seq, true) ∧ ∀ o' ∈ os, o'.response = none := by
  cases h with
  | plain _ h =>
    obtain ⟨seq, cmd⟩ := m
    unfold Dbg.handle at h
    dsimp only at h hk hl
    repeat' split at h
    all_goals first
      | (cases h; done)
      | (cases h; exact absurd rfl hn)
      | (exact absurd rfl (hl _))
      | (exact absurd hk (by assumption))
      | (cases hk; done)
      | (cases h; exact ⟨_, _, rfl, rfl, by simp [Dbg.notify]⟩)
  | continue_ a _ _ _ h =>
    cases h <;> first
      | (exact absurd rfl hn)
      | exact ⟨_, _, rfl, rfl, by simp [Dbg.notify]⟩

/-- C57: over a session the responses are to some of the messages, in their order, and to each at
most one. -/
theorem C57_at_most {env : Env} {ms : List Msg} {outs : List Sent} {d : Option Dbg} (h : Sends env ms outs d) :
    (answers outs).Sublist (ms.map (·.seq)) := by
  induction h with
  | new => exact List.Sublist.refl _
  | @msg ms outs d m r _ hh ih =>
    unfold answers at ih ⊢
    rw [List.filterMap_append, List.map_append]
    refine List.Sublist.append ih ?_
    have key : (r.outs.filterMap fun o => o.response.map (·.1)) = [] ∨
        (r.outs.filterMap fun o => o.response.map (·.1)) = [m.seq] := by
      cases hh with
      | plain _ h =>
        obtain ⟨seq, cmd⟩ := m
        unfold Dbg.handle at h
        dsimp only at h
        repeat' split at h
        all_goals first
          | (cases h; done)
          | (cases h; exact .inl rfl)
          | (cases h; exact .inr rfl)
      | continue_ a _ _ _ h => cases h <;> exact .inr rfl
    rcases key with h | h <;> rw [h]
    · exact List.nil_sublist _
    · exact List.Sublist.refl _

/-- C57 fails: launching a file that cannot be read is not answered at all. -/
theorem C57_false (env : Env) (seq : Int) (name : Bytes) :
    ∃ r, Handles env Dbg.new ⟨seq, .launch (some name) none⟩ r ∧ r.outs = [] ∧ r.next = some Dbg.new :=
  ⟨_, .plain (.inr (by simp)) rfl, rfl, rfl⟩

/-! ## C58 -/

/-- C58: a message with sensible arguments does not crash the adapter. -/
theorem C58_partial {env : Env} {d : Dbg} {m : Msg} {r : Outcome}
    (h : Handles env d m r) (hc : Sensible env d m.cmd) : r.next ≠ none := by
  cases h with
  | continue_ a h1 h2 _ h =>
    rw [h1] at hc
    have := hc (by rw [h2]; simp)
    cases h <;> first | exact absurd (by assumption) this | (intro hn; cases hn)
  | plain _ h =>
    obtain ⟨seq, cmd⟩ := m
    dsimp only at hc
    cases cmd with
    | «variables» args =>
      obtain ⟨a, rfl, h0, h1⟩ := hc
      have key : «variables» d.vm a ≠ none := by
        unfold «variables»
        split
        · cases hm : d.vm with
          | none => simp
          | some mc =>
            dsimp only
            have loop : ∀ (f i : Int) (bs : List VmBranch), (∀ b ∈ bs, b ∈ mc.tvm.branches) →
                varsLoop mc.tvm a f i bs ≠ none := by
              intro f i bs
              induction bs with
              | nil => intro _ h; cases h
              | cons b bs ih =>
                intro hbs
                rw [varsLoop]
                have ih' := ih fun b hb => hbs b (List.mem_cons_of_mem _ hb)
                split
                · have hb : branchVars mc.tvm b a i ≠ none := by
                    have hslot : ∀ {α : Type} (l : List α), (∀ c, a.count = some c → a.start.getD 0 + c ≤ l.length) →
                        slots l (bounds a l.length).1 (bounds a l.length).2 ≠ none := by
                      intro α l hl
                      obtain ⟨vs, g, -⟩ := mem_slots (l := l) (s := (bounds a l.length).1) (e := (bounds a l.length).2) h0
                        (by
                          unfold bounds
                          dsimp only
                          split
                          · exact hl _ (by assumption)
                          · exact Int.le_refl _)
                      rw [g]; simp
                    unfold branchVars
                    repeat' split
                    · simp
                    · simp
                    · intro hc
                      rw [Option.map_eq_none_iff] at hc
                      exact hslot mc.tvm.scratch (fun c hc => (h1 c hc mc hm).1) hc
                    · intro hc
                      rw [Option.map_eq_none_iff] at hc
                      exact hslot b.trace (fun c hc => (h1 c hc mc hm).2 b (hbs b (List.mem_cons_self ..))) hc
                    · simp
                  cases hv : branchVars mc.tvm b a i with
                  | none => exact absurd hv hb
                  | some vs =>
                    dsimp only
                    intro hc
                    rw [Option.map_eq_none_iff] at hc
                    exact ih' hc
                · exact ih'
            exact loop _ _ _ fun b hb => hb
        · simp
      unfold Dbg.handle at h
      dsimp only at h
      split at h
      · exact absurd (by assumption) key
      · cases h; intro hn; cases hn
    | setBreakpoints args =>
      unfold Dbg.handle at h
      dsimp only at h
      split at h
      · cases h; intro hn; cases hn
      · rename_i mc hvm
        obtain ⟨src, lns, rfl, hl⟩ := hc (by rw [hvm]; simp)
        dsimp only at h
        obtain ⟨w, hw⟩ := C38_breakpoints_partial mc.tvm (lns.map (· - d.lz)) (by
          intro ln hln
          obtain ⟨x, hx, rfl⟩ := List.mem_map.1 hln
          have := hl x hx
          omega)
        rw [hw] at h
        cases h; intro hn; cases hn
    | launch args file =>
      obtain ⟨h1, h2⟩ := hc
      cases args with
      | none => exact absurd rfl h1
      | some name =>
        cases file with
        | none => cases h; intro hn; cases hn
        | some src =>
          unfold Dbg.handle at h
          dsimp only at h
          split at h
          · exact absurd (by assumption) (h2 _ rfl)
          · cases h; intro hn; cases hn
    | next args =>
      unfold Dbg.handle at h
      dsimp only at h
      repeat' split at h
      all_goals first
        | (cases h; done)
        | (exact absurd (by assumption) hc.1)
        | (exact absurd rfl hc.2)
        | (cases h; intro hn; cases hn; done)
    | pause =>
      unfold Dbg.handle at h
      dsimp only at h
      split at h
      · exact absurd (by assumption) hc
      · cases h; intro hn; cases hn
    | «initialize» args =>
      cases args with
      | none => exact absurd rfl hc
      | some a => cases h; intro hn; cases hn
    | scopes args =>
      cases hm : d.vm with
      | none => unfold Dbg.handle at h; simp only [hm] at h; cases h; intro hn; cases hn
      | some mc =>
        cases args with
        | none => exact absurd rfl (hc (by rw [hm]; simp))
        | some f => unfold Dbg.handle at h; simp only [hm] at h; cases h; intro hn; cases hn
    | stackTrace args =>
      cases hm : d.vm with
      | none => unfold Dbg.handle at h; simp only [hm] at h; cases h; intro hn; cases hn
      | some mc =>
        cases args with
        | none => exact absurd rfl (hc (by rw [hm]; simp))
        | some f => unfold Dbg.handle at h; simp only [hm] at h; cases h; intro hn; cases hn
    | plain name =>
      unfold Dbg.handle at h
      dsimp only at h
      split at h <;> cases h <;> (intro hn; cases hn)
    | threads => cases h; intro hn; cases hn
    | continue_ a => cases h; intro hn; cases hn
    | other => cases h; intro hn; cases hn

/-- C58 fails: `pause` and `next` crash an adapter that debugs nothing yet. -/
theorem C58_false (env : Env) : ∃ outs, Sends env [⟨1, .pause⟩] outs none :=
  ⟨_, .msg (r := Dbg.new.replyPanic 1 .empty) _ .new (.plain (.inr (by simp)) rfl)⟩

/-- C58 fails: a window that is too large crashes the adapter, in every state with a machine. -/
theorem C58_window_false {env : Env} {ms : List Msg} {outs : List Sent} {d : Dbg} {mc : Machine} {b : VmBranch}
    (h : Sends env ms outs (some d)) (hm : d.vm = some mc) (hb : b ∈ mc.tvm.branches) :
    Handles env d ⟨1, .variables (some ⟨4 + 10 * b.id, none, some (b.trace.length + 1)⟩)⟩ { outs := [], next := none } := by
  refine .plain (.inr (by simp)) ?_
  have hn := sends_ids h hm
  have e : «variables» d.vm ⟨4 + 10 * b.id, none, some (b.trace.length + 1)⟩ = none := by
    unfold «variables»
    rw [if_pos (by dsimp only; omega), hm]
    dsimp only
    have e1 : (4 + 10 * (b.id : Int) - 1) / 10 = b.id := by omega
    have e2 : (4 + 10 * (b.id : Int) - 1) % 10 = 3 := by omega
    rw [e1, e2, varsLoop_one hn hb]
    have : branchVars mc.tvm b ⟨4 + 10 * b.id, none, some (b.trace.length + 1)⟩ 3 =
        (slots b.trace 0 (0 + (b.trace.length + 1))).map fun vs => vs.map fun p => (p.1, .op p.2) := rfl
    rw [this]
    unfold slots
    rw [if_neg (by omega), if_neg (by omega), if_pos (by omega)]
    rfl
  unfold Dbg.handle
  simp only [e]

/-! ## C59 -/

/-- C59: the stack trace of a branch has a frame for where it is and one for each active call,
innermost first, on the lines (counted as the client asked for) it is on and the calls were
made on.  Missing: the total number of frames (`C59_false`). -/
theorem C59_partial {env : Env} {ms : List Msg} {outs : List Sent} {d : Dbg} {mc : Machine} {b : VmBranch}
    (h : Sends env ms outs (some d)) (hm : d.vm = some mc) (hb : b ∈ mc.tvm.branches) :
    ∃ fs n, Responds env d (.stackTrace (some b.id)) (.frames fs n) ∧
      fs.map (·.line) = (activeLines b).map (lineNo · + d.lz) ∧ fs.map (·.name) = b.name :: b.frames.map (·.name) ∧
      ∀ f ∈ fs, f.id = b.id ∧ f.source = ⟨mc.name, mc.name⟩ ∧ f.column = d.cz := by
  have hn := sends_ids h hm
  refine ⟨branchFrames d ⟨mc.name, mc.name⟩ b.id b.line b.name b.frames, 1, ?_, ?_⟩
  · apply responds_of (by simp)
    intro seq
    unfold Dbg.handle
    simp only [hm]
    unfold frames
    rw [hm]
    dsimp only
    rw [filter_one hn hb]
    simp
  · unfold activeLines
    generalize b.line = line
    generalize b.name = name
    induction b.frames generalizing line name with
    | nil => simp [branchFrames]
    | cons f fs ih =>
      obtain ⟨h1, h2, h3⟩ := ih f.ret f.name
      rw [branchFrames]
      refine ⟨by rw [List.map_cons, h1]; rfl, by rw [List.map_cons, h2]; rfl, ?_⟩
      intro f' hf'
      rcases List.mem_cons.1 hf' with rfl | hf'
      · exact ⟨rfl, rfl, rfl⟩
      · exact h3 f' hf'

/-- C59 fails: inside a subroutine the total number of frames is wrong. -/
theorem C59_false {env : Env} {d : Dbg} {mc : Machine} {b : VmBranch}
    (hm : d.vm = some mc) (hb : mc.tvm.branches = [b]) (hf : b.frames ≠ []) :
    ∃ fs n, Responds env d (.stackTrace (some b.id)) (.frames fs n) ∧ n < fs.length := by
  refine ⟨branchFrames d ⟨mc.name, mc.name⟩ b.id b.line b.name b.frames, 1, ?_, ?_⟩
  · apply responds_of (by simp)
    intro seq
    unfold Dbg.handle
    simp only [hm]
    unfold frames
    rw [hm]
    dsimp only
    rw [hb]
    simp
  · obtain ⟨f, fs, h⟩ := List.exists_cons_of_ne_nil hf
    rw [h, branchFrames]
    cases fs <;> simp [branchFrames]

/-! ## C60 -/

/-- C60: setting breakpoints answers with the lines asked for, in order, a breakpoint is verified
exactly if there is an instruction on its line, and afterwards exactly the verified lines are the
machine's breakpoints. -/
theorem C60 {env : Env} {d : Dbg} {mc : Machine} (hm : d.vm = some mc) (src : Source) (lns : List Int)
    (hl : ∀ ln ∈ lns, d.lz ≤ ln) :
    ∃ (bs : List Bp) (d' : Dbg) (mc' : Machine), (∀ seq r, Handles env d ⟨seq, .setBreakpoints (some (src, lns))⟩ r →
        (∃ o, r.outs = [o] ∧ o.response = some (seq, true) ∧ o.body = .breakpoints bs) ∧ ∃ n, r.next = some { d' with id := n }) ∧
      d'.vm = some mc' ∧ bs.map (·.line) = lns ∧
      (∀ bp ∈ bs, bp.verified = true ↔ ∃ (i : Nat) (o : Op), bp.line = (i : Int) + d.lz ∧ At mc.tvm.listing i o ∧ ¬ NoOp o) ∧
      ∀ i : Nat, i ∈ mc'.tvm.breakpoints ↔ ∃ bp ∈ bs, bp.verified = true ∧ bp.line = (i : Int) + d.lz := by
  obtain ⟨w, hw⟩ := C38_breakpoints_partial mc.tvm (lns.map (· - d.lz)) (by
    intro ln hln
    obtain ⟨x, hx, rfl⟩ := List.mem_map.1 hln
    have := hl x hx
    omega)
  have hbp : ∀ x : Nat, x ∈ w.breakpoints ↔ (x : Int) ∈ lns.map (· - d.lz) ∧ InstrAt mc.tvm.listing x := by
    unfold Vm.setBreakpoints at hw
    obtain ⟨bps, h1, h2⟩ := Option.map_eq_some_iff.1 hw
    subst h2
    exact checkBreakpoints_spec h1
  have hver : ∀ bp ∈ shownBps d w src lns, bp.verified = true ↔ ∃ i : Nat, bp.line = (i : Int) + d.lz ∧ i ∈ w.breakpoints := by
    intro bp h
    obtain ⟨ln, hln, rfl⟩ := List.mem_map.1 h
    simp only [List.any_eq_true, decide_eq_true_eq]
    constructor
    · rintro ⟨k, h1, h2⟩; exact ⟨k, by omega, h1⟩
    · rintro ⟨k, h1, h2⟩; exact ⟨k, h2, by omega⟩
  refine ⟨shownBps d w src lns, { d with vm := some { mc with tvm := w } }, { mc with tvm := w }, ?_, rfl, ?_, ?_, ?_⟩
  · intro seq r h
    have hr : d.handle env ⟨seq, .setBreakpoints (some (src, lns))⟩ =
        some ({ d with vm := some { mc with tvm := w } }.replies seq (.breakpoints (shownBps d w src lns))) := by
      unfold Dbg.handle
      simp only [hm, hw]
    cases h with
    | plain _ h =>
      rw [hr] at h
      cases h
      exact ⟨⟨_, rfl, rfl, rfl⟩, _, rfl⟩
    | continue_ a hc => cases hc
  · unfold shownBps
    rw [List.map_map]
    conv => rhs; rw [← List.map_id lns]
    apply List.map_congr_left
    intro ln _
    simp only [Function.comp_apply, id_eq]
    omega
  · intro bp h
    rw [hver bp h]
    constructor
    · rintro ⟨i, h1, h2⟩
      obtain ⟨o, h3, h4⟩ := instrAt_iff.1 ((hbp i).1 h2).2
      exact ⟨i, o, h1, h3, h4⟩
    · rintro ⟨i, o, h1, h2, h3⟩
      refine ⟨i, h1, (hbp i).2 ⟨?_, instrAt_iff.2 ⟨o, h2, h3⟩⟩⟩
      obtain ⟨ln, hln, rfl⟩ := List.mem_map.1 h
      dsimp only at h1
      exact List.mem_map.2 ⟨ln, hln, by omega⟩
  · intro i
    constructor
    · intro h
      obtain ⟨ln, hln, h1⟩ := List.mem_map.1 ((hbp i).1 h).1
      have hmem : ({ id := ln - d.lz, verified := w.breakpoints.any fun k => (k : Int) = ln - d.lz, line := ln - d.lz + d.lz, source := src } : Bp) ∈ shownBps d w src lns :=
        List.mem_map.2 ⟨ln, hln, rfl⟩
      refine ⟨_, hmem, (hver _ hmem).2 ⟨i, ?_, h⟩, ?_⟩ <;> dsimp only <;> omega
    · rintro ⟨bp, h1, h2, h3⟩
      obtain ⟨j, h4, h5⟩ := (hver bp h1).1 h2
      have : i = j := by omega
      rw [this]; exact h5

/-! ## C61 -/

/-- In every state of a session the triggered breakpoints are where branches are. -/
theorem session_triggered {l : List Op} {version : Nat} {v : Vm} (h : Session l version v) :
    ∀ e ∈ v.triggered, ∃ b, v.branches[e.1]? = some b ∧ b.line = some e.2 := by
  refine (session_induct (P := fun v => ∀ e ∈ v.triggered, ∃ b, v.branches[e.1]? = some b ∧ b.line = some e.2)
    ?_ ?_ ?_ ?_ h).2
  · intro e he
    obtain ⟨y, nm, hn, ⟨-, h⟩ | ⟨-, h⟩⟩ := new_cases l version <;> rw [h] at he <;> cases he
  · intro v w hv _ hs e he
    exact (step_triggered hv hs he).2
  · intro v id _ hp
    unfold Vm.switch
    split <;> exact hp
  · intro v w lns _ hp hw
    unfold Vm.setBreakpoints at hw
    obtain ⟨bps, -, rfl⟩ := Option.map_eq_some_iff.1 hw
    exact hp

/-- C61: continuing is answered, unless it crashes the adapter, and then tells where the program
stopped: on an error; at breakpoints that the branch it names is on; or because all branches are
done. -/
theorem C61 {env : Env} {ms : List Msg} {outs : List Sent} {d d' : Dbg} {mc : Machine} {seq : Int} {a : Option Int}
    {r : Outcome} (hs : Sends env ms outs (some d)) (hm : d.vm = some mc) (h : Handles env d ⟨seq, .continue_ a⟩ r)
    (hn : r.next = some d') :
    ∃ mc' o why thread at_, d'.vm = some mc' ∧ mc.tvm.Runs mc'.tvm ∧ mc'.name = mc.name ∧ r.outs.map (·.body) = [.continued, o] ∧
      o = .stopped why thread at_ ∧
      ((why = .exception ∧ mc'.tvm.error ≠ none) ∨
       (why = .breakpoint ∧ mc'.tvm.error = none ∧ ∃ b ∈ mc'.tvm.branches, thread = some b.id ∧ at_ ≠ [] ∧
          ∀ ln ∈ at_, ln ∈ mc'.tvm.breakpoints ∧ b.line = some ln) ∨
       (why = .breakpoint ∧ mc'.tvm.error = none ∧ thread = none ∧ ∀ b ∈ mc'.tvm.branches, b.line = none)) := by
  cases h with
  | plain h1 =>
    rcases h1 with h1 | h1
    · rw [hm] at h1; cases h1
    · exact absurd rfl (h1 a)
  | @continue_ mc0 w _ h1 h2 h3 h4 =>
    rw [hm] at h2
    cases h2
    cases h1
    obtain ⟨src, res, -, -, hses⟩ := (C56 hs).2 mc hm
    have hw : Session res.listing res.version w := .run hses h3
    have hst := C42_stops hses h3
    cases h4 with
    | failed e he =>
      cases hn
      exact ⟨_, _, _, _, _, rfl, h3, rfl, rfl, rfl, .inl ⟨rfl, by simp [he]⟩⟩
    | crashed => cases hn
    | hit t th he _ ht _ =>
      cases hn
      refine ⟨_, _, _, _, _, rfl, h3, rfl, rfl, rfl, .inr (.inl ⟨rfl, he, ?_⟩)⟩
      obtain ⟨e, hmem, rfl⟩ := List.mem_map.1 ht
      obtain ⟨b, hb1, hb2⟩ := session_triggered hw e hmem
      refine ⟨b, List.mem_of_getElem? hb1, ?_, ?_, ?_⟩
      · have := (session_inv hw).ids _ _ hb1
        rw [this]
      · intro hh
        have : e.2 ∈ hits w e.1 := List.mem_map.2 ⟨e, List.mem_filter.2 ⟨hmem, by simp⟩, rfl⟩
        rw [hh] at this
        cases this
      · intro ln hln
        obtain ⟨e', he', rfl⟩ := List.mem_map.1 hln
        obtain ⟨he1, he2⟩ := List.mem_filter.1 he'
        have he2 : e'.1 = e.1 := by simpa using he2
        rcases hst with ⟨-, hst⟩ | hst | ⟨-, hst⟩
        · have := hst b (List.mem_of_getElem? hb1)
          rw [hb2] at this; cases this
        · exact absurd he hst
        · obtain ⟨g1, b', g2, g3⟩ := hst e' he1
          rw [he2, hb1] at g2
          cases g2
          exact ⟨g1, g3⟩
    | ended he _ hb =>
      cases hn
      exact ⟨_, _, _, _, _, rfl, h3, rfl, rfl, rfl, .inr (.inr ⟨rfl, he, rfl, session_idle hw hb⟩)⟩
    | running he ht hb =>
      exfalso
      rcases hst with ⟨h, -⟩ | h | ⟨h, -⟩
      · exact hb h
      · exact h he
      · exact h ht

/-! ## A concrete session -/

/-- Sending messages that always get handled the same way. -/
def sendAll (env : Env) : Dbg → List Msg → Option (List Sent × Dbg)
  | d, [] => some ([], d)
  | d, m :: ms =>
    match m.cmd, d.handle env m with
    | .continue_ _, _ => none
    | _, some ⟨outs, some d'⟩ => (sendAll env d' ms).map fun p => (outs ++ p.1, p.2)
    | _, _ => none

theorem sends_sendAll {env : Env} {ms' : List Msg} : ∀ {ms : List Msg} {outs outs' : List Sent} {d d' : Dbg},
    Sends env ms outs (some d) → sendAll env d ms' = some (outs', d') →
    Sends env (ms ++ ms') (outs ++ outs') (some d') := by
  induction ms' with
  | nil => intro ms outs outs' d d' h h'; cases h'; simpa using h
  | cons m ms' ih =>
    intro ms outs outs' d d' h h'
    rw [sendAll] at h'
    split at h'
    · cases h'
    · rename_i c o d1 hc he
      obtain ⟨p, hp, h2⟩ := Option.map_eq_some_iff.1 h'
      cases h2
      have := ih (.msg (r := ⟨o, some d1⟩) m h (.plain (.inr (fun a ha => he a ha)) hc)) hp
      simpa using this
    · cases h'

/-- A client that launches a program, sets breakpoints and steps into the subroutine. -/
def sampleMsgs : List Msg :=
  [⟨1, .initialize (some (some true, some true))⟩,
   ⟨2, .launch (some b!"a.teal") (some b!"#pragma version 8\nint 7\ncallsub f\nint 1\nreturn\nf:\nint 2\nint 3\nretsub")⟩,
   ⟨3, .plain b!"configurationDone"⟩,
   ⟨4, .setBreakpoints (some (⟨b!"a.teal", b!"a.teal"⟩, [6, 8]))⟩,
   ⟨5, .next (some 0)⟩, ⟨6, .next (some 0)⟩]

def sampleDbg : List Sent × Dbg := (sendAll sampleEnv Dbg.new sampleMsgs).getD ([], Dbg.new)

/-- The session reaches a state in the subroutine. -/
theorem sample_sends : Sends sampleEnv sampleMsgs sampleDbg.1 (some sampleDbg.2) := by
  have h : sendAll sampleEnv Dbg.new sampleMsgs = some sampleDbg := by
    unfold sampleDbg
    have : (sendAll sampleEnv Dbg.new sampleMsgs).isSome = true := by decide +kernel
    obtain ⟨x, hx⟩ := Option.isSome_iff_exists.1 this
    rw [hx]; rfl
  exact sends_sendAll .new h

/-- In it the one branch has a call, a stack of one value, and the breakpoint asked for on an
instruction is set. -/
theorem sample_state : ∃ mc b, sampleDbg.2.vm = some mc ∧ mc.tvm.branches = [b] ∧ b.frames ≠ [] ∧ b.line = some 6 ∧
    b.stack.length = 1 ∧ mc.tvm.breakpoints = [7] ∧ b.trace.length = 2 := by
  have h : (match sampleDbg.2.vm with
    | some mc => (match mc.tvm.branches with
      | [b] => decide (b.frames ≠ [] ∧ b.line = some 6 ∧ b.stack.length = 1 ∧ mc.tvm.breakpoints = [7] ∧ b.trace.length = 2)
      | _ => false)
    | none => false) = true := by decide +kernel
  split at h
  · rename_i mc hm
    split at h
    · rename_i b hb
      exact ⟨mc, b, hm, hb, of_decide_eq_true h⟩
    · cases h
  · cases h

/-- C52, C57: eleven messages are sent, numbered in order, with one response to each request. -/
example : sampleDbg.1.map (·.seq) = [1, 2, 3, 4, 5, 6, 7, 8, 9, 10, 11] ∧ answers sampleDbg.1 = [1, 2, 3, 4, 5, 6] := by
  decide +kernel

/-- C51, C59: the hypotheses hold in the state reached. -/
example : ∃ mc b fs n, sampleDbg.2.vm = some mc ∧ b ∈ mc.tvm.branches ∧
    Responds sampleEnv sampleDbg.2 (.stackTrace (some b.id)) (.frames fs n) ∧ fs.map (·.line) = [7, 3] := by
  obtain ⟨mc, b, hm, hb, -⟩ := sample_state
  have hmem : b ∈ mc.tvm.branches := by rw [hb]; simp
  obtain ⟨fs, n, h1, h2, -⟩ := C59_partial sample_sends hm hmem
  refine ⟨mc, b, fs, n, hm, hmem, h1, ?_⟩
  rw [h2]
  have h : (match sampleDbg.2.vm with
    | some mc => mc.tvm.branches.map fun b => (activeLines b).map (lineNo · + sampleDbg.2.lz)
    | none => []) = [[7, 3]] := by decide +kernel
  rw [hm] at h
  dsimp only at h
  rw [hb] at h
  simpa using h

/-- C59 fails in the state reached. -/
example : ∃ mc b fs n, sampleDbg.2.vm = some mc ∧ b ∈ mc.tvm.branches ∧
    Responds sampleEnv sampleDbg.2 (.stackTrace (some b.id)) (.frames fs n) ∧ n < fs.length := by
  obtain ⟨mc, b, hm, hb, hf, -⟩ := sample_state
  obtain ⟨fs, n, h⟩ := C59_false (env := sampleEnv) hm hb hf
  exact ⟨mc, b, fs, n, hm, by rw [hb]; simp, h⟩

/-- C56: the program launched is the one debugged. -/
example : ∃ mc src, sampleDbg.2.vm = some mc ∧ (sampleMsgs.filterMap launchOf).getLast? = some (b!"a.teal", src) := by
  obtain ⟨mc, b, hm, -⟩ := sample_state
  exact ⟨mc, _, hm, rfl⟩

/-- C58: setting a breakpoint in the first line is sensible, and so is looking at the whole scratch
space. -/
example : Sensible sampleEnv sampleDbg.2 (.setBreakpoints (some (⟨[], []⟩, [1]))) ∧
    Sensible sampleEnv sampleDbg.2 (.variables (some ⟨3, none, none⟩)) := by
  have h : sampleDbg.2.lz = 1 := by decide +kernel
  refine ⟨fun _ => ⟨_, _, rfl, ?_⟩, ⟨_, rfl, by decide, ?_⟩⟩
  · intro ln hln; simp at hln; omega
  · intro c hc; cases hc

/-- C60: of two lines asked for, the one with an instruction is verified. -/
example : (sampleDbg.1.filterMap fun o => match o.body with
    | .breakpoints bs => some (bs.map fun b => (b.line, b.verified))
    | _ => none) = [[(6, false), (8, true)]] := by decide +kernel

/-- C61: continuing from there stops at the breakpoint. -/
example : ∃ r mc, sampleDbg.2.vm = some mc ∧ Handles sampleEnv sampleDbg.2 ⟨7, .continue_ (some 0)⟩ r ∧ r.next ≠ none ∧
    r.outs.map (·.body) = [.continued, .stopped .breakpoint (some 0) [7]] := by
  obtain ⟨mc, b, hm, hb, -⟩ := sample_state
  have h : (match sampleDbg.2.vm with
    | some mc => (match mc.tvm.step with
      | some w => decide (mc.tvm.branch ≠ none ∧ mc.tvm.error = none ∧ w.error = none ∧ w.triggered = [(0, 7)])
      | none => false)
    | none => false) = true := by decide +kernel
  rw [hm] at h
  dsimp only at h
  split at h
  · rename_i w hw
    obtain ⟨h1, h2, h3, h4⟩ := of_decide_eq_true h
    refine ⟨_, mc, hm, .continue_ (some 0) rfl hm (.hit h1 h2 hw (by rw [h4]; simp)) (.hit 0 0 h3 rfl (by rw [h4]; simp) (fun _ => rfl)), ?_, ?_⟩
    · intro h; cases h
    · have : hits w 0 = [7] := by unfold hits; rw [h4]; rfl
      rw [← this]
      rfl
  · cases h

end Teal.Props
