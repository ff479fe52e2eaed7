import Verif.Props.Dap

/-!
# Looking at a debugged program

C90: the requests that look at the program do not run it; pausing tells which thread is the selected
one; commands the adapter does not know do nothing.
-/

namespace Teal.Spec

open Teal.Dap

/-- The commands that are not meant to change anything: all but those that set the session up, run
the program or set breakpoints. -/
def Looks : Command → Prop
  | .initialize _ => False
  | .launch _ _ => False
  | .setBreakpoints _ => False
  | .continue_ _ => False
  | .next _ => False
  | _ => True

end Teal.Spec

namespace Teal.Props

open Teal.Spec Teal.Dap

theorem handles_plain {env : Env} {d : Dbg} {m : Msg} {r : Outcome} (h : Handles env d m r) (hc : ∀ a, m.cmd ≠ .continue_ a) :
    d.handle env m = some r := by
  cases h with
  | plain _ h => exact h
  | continue_ a h1 => exact absurd h1 (hc a)

/-- C90: a command that looks leaves the program where it is, its breakpoints and branches as they
are, and the way lines and columns are counted. -/
theorem C90_look {env : Env} {d d' : Dbg} {m : Msg} {r : Outcome} (h : Handles env d m r) (hl : Looks m.cmd)
    (hn : r.next = some d') : d'.vm = d.vm ∧ d'.lz = d.lz ∧ d'.cz = d.cz := by
  obtain ⟨seq, cmd⟩ := m
  replace h := handles_plain h (fun a e => by dsimp only at e hl; rw [e] at hl; exact hl)
  unfold Dbg.handle at h
  cases cmd <;> try (exact absurd hl id)
  case plain name =>
    dsimp only at h
    split at h <;> (cases h; cases hn; exact ⟨rfl, rfl, rfl⟩)
  case threads => cases h; cases hn; exact ⟨rfl, rfl, rfl⟩
  case pause =>
    dsimp only at h
    split at h
    · cases h; cases hn
    · cases h; cases hn; exact ⟨rfl, rfl, rfl⟩
  case «variables» a =>
    cases a with
    | none => cases h; cases hn
    | some a =>
      dsimp only at h
      split at h
      · cases h; cases hn
      · cases h; cases hn; exact ⟨rfl, rfl, rfl⟩
  case scopes a =>
    dsimp only at h
    split at h
    · cases h; cases hn; exact ⟨rfl, rfl, rfl⟩
    · cases h; cases hn
    · cases h; cases hn; exact ⟨rfl, rfl, rfl⟩
  case stackTrace a =>
    dsimp only at h
    split at h
    · cases h; cases hn; exact ⟨rfl, rfl, rfl⟩
    · cases h; cases hn
    · cases h; cases hn; exact ⟨rfl, rfl, rfl⟩
  case other => cases h; cases hn; exact ⟨rfl, rfl, rfl⟩

/-- C90: setting breakpoints changes nothing else. -/
theorem C90_breakpoints {env : Env} {d d' : Dbg} {mc : Machine} {seq : Int} {a : Option (Source × List Int)} {r : Outcome}
    (h : Handles env d ⟨seq, .setBreakpoints a⟩ r) (hm : d.vm = some mc) (hn : r.next = some d') :
    ∃ mc' bps, d'.vm = some mc' ∧ mc'.name = mc.name ∧ mc'.tvm = { mc.tvm with breakpoints := bps } ∧ d'.lz = d.lz ∧ d'.cz = d.cz := by
  have h := handles_plain h (fun a => by simp)
  unfold Dbg.handle at h
  simp only [hm] at h
  cases a with
  | none => cases h; cases hn
  | some a =>
    dsimp only at h
    split at h
    · cases h; cases hn
    · rename_i w hw
      cases h; cases hn
      unfold Vm.setBreakpoints at hw
      obtain ⟨bps, -, rfl⟩ := Option.map_eq_some_iff.1 hw
      exact ⟨_, bps, rfl, rfl, rfl, rfl, rfl⟩

/-- C90: pausing a debugged program is answered and tells that the program is stopped for that reason
at the thread that is selected, if one is. -/
theorem C90_pause {env : Env} {d : Dbg} {mc : Machine} {seq : Int} (hm : d.vm = some mc) :
    ∃ r, Handles env d ⟨seq, .pause⟩ r ∧ ∀ r, Handles env d ⟨seq, .pause⟩ r →
      ∃ o e thread d', r.outs = [o, e] ∧ o.response = some (seq, true) ∧ e.response = none ∧ e.body = .stopped .pause thread [] ∧
        (∀ t, thread = some t ↔ ∃ k b, mc.tvm.branch = some k ∧ mc.tvm.branches[k]? = some b ∧ t = b.id) ∧
        r.next = some d' ∧ d'.vm = some mc := by
  have hh : d.handle env ⟨seq, .pause⟩ = some (d.replyNotify seq .empty (.stopped .pause (branchId mc.tvm) [])) := by
    simp only [Dbg.handle, hm]
  refine ⟨_, .plain (.inr (by simp)) hh, fun r h => ?_⟩
  have h := handles_plain h (by simp)
  rw [hh] at h
  cases h
  refine ⟨_, _, branchId mc.tvm, _, rfl, rfl, rfl, rfl, fun t => ?_, rfl, hm⟩
  unfold branchId
  rw [Option.map_eq_some_iff]
  constructor
  · rintro ⟨b, hb, rfl⟩
    obtain ⟨k, hk, hb⟩ := Option.bind_eq_some_iff.1 hb
    exact ⟨k, b, hk, hb, rfl⟩
  · rintro ⟨k, b, hk, hb, rfl⟩
    exact ⟨b, by rw [hk]; exact hb, rfl⟩

/-- C90: a command the adapter does not know changes nothing, and nothing is sent for it. -/
theorem C90_unknown {env : Env} {d : Dbg} {m : Msg} (hu : ¬ KnownCommand m.cmd) (r : Outcome) :
    Handles env d m r ↔ r = { outs := [], next := some d } := by
  obtain ⟨seq, cmd⟩ := m
  have hh : d.handle env ⟨seq, cmd⟩ = some { outs := [], next := some d } := by
    cases cmd <;> try (exact absurd trivial hu)
    case plain name => simp only [Dbg.handle]; exact if_neg hu
    case other => rfl
  have hc : ∀ a, cmd ≠ .continue_ a := fun a e => hu (by rw [e]; exact trivial)
  constructor
  · intro h
    have h := handles_plain h hc
    rw [hh] at h
    cases h; rfl
  · rintro rfl
    exact .plain (.inr hc) hh

/-- C90: in the sample session a thread is selected, and pausing names it. -/
example : ∃ r e, Handles sampleEnv sampleDbg.2 ⟨7, .pause⟩ r ∧ e ∈ r.outs ∧ e.body = .stopped .pause (some 0) [] := by
  obtain ⟨mc, b, hm, -⟩ := sample_state
  obtain ⟨r, hr, h⟩ := C90_pause (env := sampleEnv) (seq := 7) hm
  obtain ⟨o, e, thread, d', ho, -, -, he, ht, -⟩ := h r hr
  refine ⟨r, e, hr, by rw [ho]; simp, ?_⟩
  rw [he, (ht 0).2 ?_]
  have hk : (sampleDbg.2.vm.bind fun mc => mc.tvm.branch.bind fun k => mc.tvm.branches[k]?.map (·.id)) = some 0 := by decide +kernel
  rw [hm] at hk
  obtain ⟨k, hk, hb⟩ := Option.bind_eq_some_iff.1 (show mc.tvm.branch.bind _ = _ from hk)
  obtain ⟨b, hb, hid⟩ := Option.map_eq_some_iff.1 hb
  exact ⟨k, b, hk, hb, hid.symm⟩

/-- C90: `source` is not a command the adapter knows; looking at threads looks. -/
example : ¬ KnownCommand (.plain b!"source") ∧ Looks .threads := by
  exact ⟨by show ¬ _ ∈ plainCommands; decide +kernel, trivial⟩

end Teal.Props
