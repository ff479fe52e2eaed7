import Verif.Props.Dap

/-!
# C64–C66: stepping a thread, listing threads, counting lines, launching
-/

namespace Teal.Props

open Teal.Spec Teal.Dap

/-! ## C64 -/

theorem branchId_some {v : Vm} (hv : Inv v) {k : Nat} (h : v.branch = some k) :
    ∃ x, v.branches[k]? = some x ∧ branchId v = some x.id := by
  have := hv.sel k h
  subst this
  refine ⟨_, List.getElem?_eq_getElem hv.current, ?_⟩
  unfold branchId
  rw [h]
  simp [List.getElem?_eq_getElem hv.current]

theorem branchId_none {v : Vm} (hv : Inv v) (h : branchId v = none) : v.branch = none := by
  cases hb : v.branch with
  | none => rfl
  | some k =>
    obtain ⟨x, -, h'⟩ := branchId_some hv hb
    rw [h'] at h; cases h

/-- C64: stepping a thread that is at an instruction is answered, then the stop is reported: either
the instruction failed, or it was executed, or the branch ended because its budget does not
suffice.  No other branch changes.  The thread reported is the one selected then, and none only if
all branches are done. -/
theorem C64 {env : Env} {ms : List Msg} {outs : List Sent} {d : Dbg} {mc : Machine} {k i : Nat} {b : VmBranch} {o : Op}
    {seq : Int} {r : Outcome} (h : Sends env ms outs (some d)) (hm : d.vm = some mc) (hb : mc.tvm.branches[k]? = some b)
    (hi : b.line = some i) (ho : At mc.tvm.listing i o) (hr : Handles env d ⟨seq, .next (some b.id)⟩ r) :
    ∃ d' mc' b' why thread, r.next = some d' ∧ d'.vm = some mc' ∧ mc'.name = mc.name ∧ mc'.tvm.branches[k]? = some b' ∧
      r.outs.map (·.body) = [.empty, .stopped why thread []] ∧
      ((why = .exception ∧ thread = none ∧ mc'.tvm.error ≠ none) ∨
       (why = .step ∧ mc'.tvm.error = none ∧
        (b'.trace = b.trace ++ [o] ∨ (b' = b.exit ∧ ∃ c, CostIs mc.tvm.version b o c ∧ b.budget < c)) ∧
        (∀ t, thread = some t → ∃ (j : Nat) (x : VmBranch), mc'.tvm.branch = some j ∧ mc'.tvm.branches[j]? = some x ∧ x.id = t) ∧
        (thread = none → ∀ x ∈ mc'.tvm.branches, x.line = none))) ∧
      ∀ (j : Nat) (c : VmBranch), j ≠ k → mc.tvm.branches[j]? = some c → ∃ c', mc'.tvm.branches[j]? = some c' ∧ c'.id = c.id ∧
        c'.stack = c.stack ∧ c'.frames = c.frames ∧ c'.budget = c.budget ∧ c'.trace = c.trace := by
  obtain ⟨src, res, -, -, hses⟩ := (C56 h).2 mc hm
  have hsw : switchTo mc.tvm b.id = { mc.tvm with branch := some k, current := k } := by
    unfold switchTo
    rw [if_pos (by omega)]
    exact C41_switch hses hb
  have hses' := switchTo_session hses b.id
  rw [hsw] at hses'
  have hsel : Selected { mc.tvm with branch := some k, current := k } k b i o := ⟨rfl, hb, hi, ho⟩
  cases hr with
  | continue_ a hc => cases hc
  | plain _ hr =>
    unfold Dbg.handle at hr
    simp only [hm, hsw] at hr
    split at hr
    · cases hr
    · rename_i w hw
      obtain ⟨b', hb'⟩ := step_grows (session_inv hses') hw (j := k) hb
      have hothers : ∀ (j : Nat) (c : VmBranch), j ≠ k → mc.tvm.branches[j]? = some c → ∃ c', w.branches[j]? = some c' ∧
          c'.id = c.id ∧ c'.stack = c.stack ∧ c'.frames = c.frames ∧ c'.budget = c.budget ∧ c'.trace = c.trace := by
        intro j c hj hc
        obtain ⟨c', h1, h2, h3, h4, h5, h6, -⟩ := C39_independent hses' hsel hw hj hc
        exact ⟨c', h1, h2, h3, h4, h5, h6⟩
      have hw' : Session res.listing res.version w := .step hses' hw
      split at hr
      · rename_i e he
        cases hr
        exact ⟨_, _, b', _, _, rfl, rfl, rfl, hb', rfl, .inl ⟨rfl, rfl, by simp [he]⟩, hothers⟩
      · rename_i he
        cases hr
        refine ⟨_, _, b', _, _, rfl, rfl, rfl, hb', rfl, .inr ⟨rfl, he, ?_, ?_, ?_⟩, hothers⟩
        · rcases selected_step (session_inv hses') hsel hw hb' with ⟨h1, -⟩ | ⟨-, h1, h2⟩ | ⟨c, e, m, -, h1, -⟩ | ⟨c, m, -, -, -, -, h1⟩
          · exact absurd he h1
          · exact .inr ⟨h1, h2⟩
          · exact absurd he h1
          · exact .inl h1
        · intro t ht
          cases hbr : w.branch with
          | none => unfold branchId at ht; rw [hbr] at ht; cases ht
          | some j =>
            obtain ⟨x, h1, h2⟩ := branchId_some (session_inv hw') hbr
            rw [h2] at ht
            cases ht
            exact ⟨j, x, rfl, h1, rfl⟩
        · intro ht
          exact session_idle hw' (branchId_none (session_inv hw') ht)

/-- C64: the threads listed are the branches of the machine, each once, in the order they were
created. -/
theorem C64_threads {env : Env} {ms : List Msg} {outs : List Sent} {d : Dbg} {mc : Machine}
    (h : Sends env ms outs (some d)) (hm : d.vm = some mc) :
    ∃ ids, Responds env d .threads (.threads ids) ∧ ids.Nodup ∧ ids.length = mc.tvm.branches.length ∧
      ∀ (i : Nat) (b : VmBranch), mc.tvm.branches[i]? = some b → ids[i]? = some b.id := by
  refine ⟨mc.tvm.branches.map (·.id), ?_, sends_ids h hm, by simp, ?_⟩
  · apply responds_of (by simp)
    intro seq
    unfold Dbg.handle
    simp only [hm]
  · intro i b hb
    rw [List.getElem?_map, hb]
    rfl

/-- C64: the sample session goes on with a step of its thread. -/
example : ∃ mc b r, sampleDbg.2.vm = some mc ∧ mc.tvm.branches[0]? = some b ∧ b.line = some 6 ∧ (∃ o, At mc.tvm.listing 6 o) ∧
    Handles sampleEnv sampleDbg.2 ⟨7, .next (some b.id)⟩ r ∧ r.outs.map (·.body) = [.empty, .stopped .step (some 0) []] := by
  obtain ⟨mc, b, hm, hb, -, hl, -⟩ := sample_state
  have h : (match sampleDbg.2.vm with
    | some mc => decide (mc.tvm.listing.length = 9) &&
      (match sampleDbg.2.handle sampleEnv ⟨7, .next (some 0)⟩ with
        | some r => decide (r.outs.map (·.body) = [.empty, .stopped .step (some 0) []])
        | none => false)
    | none => false) = true := by decide +kernel
  rw [hm] at h
  dsimp only at h
  rw [Bool.and_eq_true] at h
  obtain ⟨h1, h2⟩ := h
  have h1 := of_decide_eq_true h1
  split at h2
  · rename_i r hr
    have hid : b.id = 0 := by
      obtain ⟨src, res, -, -, hses⟩ := (C56 sample_sends).2 mc hm
      exact C41 hses 0 b (by rw [hb]; rfl)
    refine ⟨mc, b, r, hm, by rw [hb]; rfl, hl, ⟨mc.tvm.listing[6], List.getElem?_eq_getElem (by omega)⟩, ?_, of_decide_eq_true h2⟩
    rw [hid]
    exact .plain (.inr (by simp)) hr
  · cases h2

/-! ## C65 -/

/-- The client asked to count lines (`lines`) or columns from one, or did not say. -/
def asksOne (lines : Bool) : Msg → Bool
  | ⟨_, .initialize (some (l, c))⟩ => (if lines then l else c) != some false
  | _ => false

theorem asksOne_other {lines : Bool} {m : Msg} (h : ∀ a, m.cmd ≠ .initialize a) : asksOne lines m = false := by
  obtain ⟨seq, cmd⟩ := m
  cases cmd <;> first | rfl | exact absurd rfl (h _)

theorem handle_base {env : Env} {d d' : Dbg} {m : Msg} {r : Outcome} (h : d.handle env m = some r) (hn : r.next = some d') :
    d'.lz = (if asksOne true m then 1 else d.lz) ∧ d'.cz = (if asksOne false m then 1 else d.cz) := by
  obtain ⟨seq, cmd⟩ := m
  by_cases hc : ∀ a, cmd ≠ .initialize a
  · rw [asksOne_other hc, asksOne_other hc]
    simp only [Bool.false_eq_true, if_false]
    unfold Dbg.handle at h
    dsimp only at h
    (repeat' split at h) <;> (try cases h) <;> (try cases hn) <;> first | exact ⟨rfl, rfl⟩ | exact absurd rfl (hc _)
  · cases cmd with
    | «initialize» a =>
      cases a with
      | none => cases h; cases hn
      | some a =>
        obtain ⟨l, c⟩ := a
        cases h
        cases hn
        rcases l with _ | _ | _ <;> rcases c with _ | _ | _ <;> exact ⟨rfl, rfl⟩
    | _ => exact absurd (fun a ha => by cases ha) hc

theorem handles_base {env : Env} {d d' : Dbg} {m : Msg} {r : Outcome} (h : Handles env d m r) (hn : r.next = some d') :
    d'.lz = (if asksOne true m then 1 else d.lz) ∧ d'.cz = (if asksOne false m then 1 else d.cz) := by
  cases h with
  | plain _ h => exact handle_base h hn
  | @continue_ mc w a hc hm hrun h =>
    rw [asksOne_other (by rw [hc]; simp), asksOne_other (by rw [hc]; simp)]
    simp only [Bool.false_eq_true, if_false]
    cases h <;> cases hn <;> exact ⟨rfl, rfl⟩

theorem sends_base {env : Env} {ms : List Msg} {outs : List Sent} {o : Option Dbg} (h : Sends env ms outs o) :
    ∀ d, o = some d → d.lz = (if ms.any (asksOne true) then 1 else 0) ∧ d.cz = (if ms.any (asksOne false) then 1 else 0) := by
  induction h with
  | new => intro d hd; cases hd; exact ⟨rfl, rfl⟩
  | @msg ms outs d m r _ hh ih =>
    intro d' hd
    obtain ⟨h1, h2⟩ := ih d rfl
    obtain ⟨g1, g2⟩ := handles_base hh hd
    rw [g1, g2, h1, h2]
    simp only [List.any_append, List.any_cons, List.any_nil, Bool.or_false]
    constructor
    · cases ms.any (asksOne true) <;> cases asksOne true m <;> rfl
    · cases ms.any (asksOne false) <;> cases asksOne false m <;> rfl

/-- C65: if the client sent one `initialize`, then from then on the adapter counts lines and columns
from zero exactly if that said so; otherwise from one. -/
theorem C65 {env : Env} {ms ms' : List Msg} {outs : List Sent} {d : Dbg} {seq : Int} {lines cols : Option Bool}
    (h : Sends env (ms ++ ⟨seq, .initialize (some (lines, cols))⟩ :: ms') outs (some d))
    (hms : ∀ m ∈ ms ++ ms', ∀ a, m.cmd ≠ .initialize a) :
    d.lz = (if lines = some false then 0 else 1) ∧ d.cz = (if cols = some false then 0 else 1) := by
  obtain ⟨h1, h2⟩ := sends_base h d rfl
  have hno : ∀ b, ms.any (asksOne b) = false ∧ ms'.any (asksOne b) = false := by
    intro b
    refine ⟨List.any_eq_false.2 fun m hm => ?_, List.any_eq_false.2 fun m hm => ?_⟩ <;>
      rw [asksOne_other (hms m (by simp [hm]))] <;> simp
  rw [h1, h2]
  simp only [List.any_append, List.any_cons, (hno _).1, (hno _).2, Bool.false_or, Bool.or_false]
  rcases lines with _ | _ | _ <;> rcases cols with _ | _ | _ <;> exact ⟨rfl, rfl⟩

/-- C65: without `initialize` lines and columns are counted from zero. -/
theorem C65_uninitialized {env : Env} {ms : List Msg} {outs : List Sent} {d : Dbg} (h : Sends env ms outs (some d))
    (hms : ∀ m ∈ ms, ∀ a, m.cmd ≠ .initialize a) : d.lz = 0 ∧ d.cz = 0 := by
  obtain ⟨h1, h2⟩ := sends_base h d rfl
  have hno : ∀ b, ms.any (asksOne b) = false := fun b =>
    List.any_eq_false.2 fun m hm => by rw [asksOne_other (hms m hm)]; simp
  rw [h1, h2, hno, hno]
  exact ⟨rfl, rfl⟩

/-- C65: the sample session begins with its one `initialize`. -/
example : ∃ ms', sampleMsgs = [] ++ ⟨1, .initialize (some (some true, some true))⟩ :: ms' ∧
    (∀ m ∈ [] ++ ms', ∀ a, m.cmd ≠ .initialize a) ∧ sampleDbg.2.lz = 1 := by
  refine ⟨_, rfl, ?_, (C65 (ms := []) sample_sends ?_).1⟩ <;>
  · intro m hm a
    simp only [List.nil_append, List.mem_cons, List.not_mem_nil, or_false] at hm
    rcases hm with rfl | rfl | rfl | rfl | rfl <;> simp

/-! ## C66 -/

/-- C66: launching a file that can be analysed is answered, then the process is named, and then the
stop on entry reported, on the first branch, if there is an instruction to execute.  Nothing has
been executed then, no breakpoints are set, and how lines are counted stays as it was. -/
theorem C66 {env : Env} {d : Dbg} {name src : Bytes} {res : ProcessResult} {seq : Int} {r : Outcome}
    (hp : process env src = some res) (hr : Handles env d ⟨seq, .launch (some name) (some src)⟩ r) :
    ∃ d' mc b thread, r.next = some d' ∧ d'.vm = some mc ∧ mc.name = name ∧ mc.tvm.listing = res.listing ∧
      mc.tvm.version = res.version ∧ d'.lz = d.lz ∧ d'.cz = d.cz ∧
      r.outs.map (·.body) = [.empty, .process name, .stopped .entry thread []] ∧
      mc.tvm.branches = [b] ∧ b.id = 0 ∧ b.stack = [] ∧ b.frames = [] ∧ b.trace = [] ∧ b.budget = 700 ∧
      mc.tvm.error = none ∧ mc.tvm.triggered = [] ∧ mc.tvm.breakpoints = [] ∧
      ((∃ i o, At res.listing i o ∧ ¬ NoOp o) → thread = some 0 ∧ ∃ i, b.line = some i ∧ FirstFrom res.listing 0 i) ∧
      ((∀ i o, At res.listing i o → NoOp o) → thread = none ∧ b.line = none) := by
  cases hr with
  | continue_ a hc => cases hc
  | plain _ hr =>
    unfold Dbg.handle at hr
    simp only [hp] at hr
    cases hr
    obtain ⟨j, nm, hn, ⟨hi, hv⟩ | ⟨hj, hv⟩⟩ := new_cases res.listing res.version
    · refine ⟨_, _, _, _, rfl, rfl, rfl, by rw [hv], by rw [hv], rfl, rfl, rfl, by rw [hv], rfl, rfl, rfl, rfl, rfl,
        by rw [hv], by rw [hv], by rw [hv], ?_, ?_⟩
      · intro _
        exact ⟨by rw [hv]; rfl, j, rfl, Nat.zero_le _, instrAt_iff.1 hi, fun y h0 hy => (by obtain ⟨o, g1, g2⟩ := hn y h0 hy; exact ⟨o, g1, (isNop_iff _).1 g2⟩)⟩
      · intro hall
        obtain ⟨o, h1, h2⟩ := instrAt_iff.1 hi
        exact absurd (hall j o h1) h2
    · refine ⟨_, _, _, _, rfl, rfl, rfl, by rw [hv], by rw [hv], rfl, rfl, rfl, by rw [hv], rfl, rfl, rfl, rfl, rfl,
        by rw [hv], by rw [hv], by rw [hv], ?_, ?_⟩
      · rintro ⟨i, o, h1, h2⟩
        exact absurd (nopsBetween_none hn hj i o (Nat.zero_le _) h1) h2
      · intro _
        exact ⟨by rw [hv]; rfl, rfl⟩

/-- C66: launching a program with instructions, after `initialize`. -/
example : ∃ d outs r res, Sends sampleEnv [⟨1, .initialize (some (none, none))⟩] outs (some d) ∧
    Handles sampleEnv d ⟨2, .launch (some b!"a.teal") (some b!"// a\nint 1")⟩ r ∧
    process sampleEnv b!"// a\nint 1" = some res ∧ (∃ i o, At res.listing i o ∧ ¬ NoOp o) ∧
    r.outs.map (·.body) = [.empty, .process b!"a.teal", .stopped .entry (some 0) []] := by
  have hp : (process sampleEnv b!"// a\nint 1").map (·.listing) = some [.empty, .int 1] := by decide +kernel
  obtain ⟨res, h1, h2⟩ := Option.map_eq_some_iff.1 hp
  obtain ⟨r, hr⟩ : ∃ r, (({ Dbg.new with lz := 1, cz := 1 }.replyNotify 1 .capabilities .initialized).next.getD Dbg.new).handle sampleEnv
      ⟨2, .launch (some b!"a.teal") (some b!"// a\nint 1")⟩ = some r := by
    unfold Dbg.handle
    simp only [h1]
    exact ⟨_, rfl⟩
  have hI : ∃ i o, At res.listing i o ∧ ¬ NoOp o := ⟨1, .int 1, by rw [h2]; rfl, by rintro ⟨⟩⟩
  refine ⟨_, _, r, res, .msg (r := { Dbg.new with lz := 1, cz := 1 }.replyNotify 1 .capabilities .initialized) _ .new (.plain (.inl rfl) rfl),
    .plain (.inl rfl) hr, h1, hI, ?_⟩
  obtain ⟨d', mc, b, thread, -, -, -, -, -, -, -, g, -, -, -, -, -, -, -, -, -, g', -⟩ := C66 h1 (.plain (.inl rfl) hr)
  rw [g, (g' hI).1]

end Teal.Props
