import Verif.Props.Process2
import Verif.Props.Sarif
import Verif.Props.Dap

/-!
# C22, C23, C53 and C59: what the code does where these properties are false
-/

namespace Teal.Props
open Teal Teal.Spec Teal.Sarif

/-- The diagnostics about availability at the first word of a line, from the table of opcodes. -/
theorem avail_entry {env : Env} {src : Bytes} {r : ProcessResult} (h : process env src = some r)
    {k V : Nat} (hV : VersionAt (tokens src) k V) {sig : Bool} (hsig : sig = true ↔ SigAt (tokens src) k)
    {t : Token} (ht : (words (tokens src) k).head? = some t) {e : OpEntry} (he : opsGet t.v = some e)
    (x : Diag) (hx : x.kind.isAvail = true) (hxl : x.l = k) :
    x ∈ r.diagnostics ↔ x ∈ availDiags (if sig then .sig else .app) (e.minVersion (if sig then .sig else .app)) V t := by
  obtain ⟨os, hr, ha⟩ := process_run h
  have hlt : k < lineCount (tokens src) := words_lt (fun h => by rw [h] at ht; cases ht)
  have hver := (carry_version env.addrOk src os hr k (Nat.le_of_lt hlt) V).1 hV
  have hmode := carry_mode env.addrOk src os hr k (Nat.le_of_lt hlt)
  rw [avail_diags hr ha x hx]
  have hmd : (carryAt {} os k).mode = if sig then .sig else .app := by
    cases hm : (carryAt {} os k).mode with
    | sig => rw [if_pos (hsig.2 (hmode.1 hm))]
    | app => rw [if_neg (fun hs => by have := hmode.2 (hsig.1 hs); rw [hm] at this; cases this)]
  constructor
  · rintro ⟨j, u, e', hj, hi, hm⟩
    obtain ⟨hu, hu'⟩ := instrOf_words.1 hi
    have hul : x.l = u.l := by
      unfold availDiags at hm
      rw [List.mem_append] at hm
      rcases hm with hm | hm <;> split at hm <;> simp at hm <;> rw [hm]
    have htl := (mem_words.1 (List.mem_of_mem_head? ht)).2.1
    obtain ⟨rfl, rfl⟩ := head_unique ht hu (by omega)
    rw [he] at hu'
    injection hu' with hu'
    subst hu'
    rw [hmd, ← hver] at hm
    exact hm
  · intro hm
    refine ⟨k, t, e, hlt, instrOf_words.2 ⟨ht, he⟩, ?_⟩
    rw [hmd, ← hver]
    exact hm

/-- **C22**, **C23** (what is reported of `args`).  In a logic signature `args` is always said not to be available, and
in an application it is said to need version 5 in earlier ones; the reference has it the other way round. -/
theorem C22_args (env : Env) (src : Bytes) (r : ProcessResult) (h : process env src = some r)
    (k V : Nat) (hV : VersionAt (tokens src) k V) (sig : Bool) (hsig : sig = true ↔ SigAt (tokens src) k)
    (t : Token) (ht : (words (tokens src) k).head? = some t) (hn : t.v = b!"args") :
    (∀ m, ⟨.mode m, t.l, t.b, t.e⟩ ∈ r.diagnostics ↔ sig = true ∧ m = .sig) ∧
    (∀ min cur, ⟨.version min cur, t.l, t.b, t.e⟩ ∈ r.diagnostics ↔ sig = false ∧ min = 5 ∧ V < 5 ∧ cur = V) := by
  have htl := (mem_words.1 (List.mem_of_mem_head? ht)).2.1
  obtain ⟨e, he, h1, h2⟩ : ∃ e, opsGet b!"args" = some e ∧ e.minVersion .sig = 0 ∧ e.minVersion .app = 5 :=
    ⟨_, rfl, by decide +kernel, by decide +kernel⟩
  rw [← hn] at he
  refine ⟨fun m => ?_, fun min cur => ?_⟩
  · rw [avail_entry h hV hsig ht he _ rfl htl]
    cases sig
    · simp [availDiags, h2]
    · simp [availDiags, h1]
  · rw [avail_entry h hV hsig ht he _ rfl htl]
    cases sig
    · simp only [Bool.false_eq_true, if_false, availDiags, h2, List.mem_append]
      by_cases hV' : V < 5
      · simp [hV']
      · simp [hV']
    · simp [availDiags, h1]

example : ∃ r, process sampleEnv b!"#pragma version 4\nargs" = some r ∧ ⟨.version 5 4, 1, 0, 4⟩ ∈ r.diagnostics := by
  obtain ⟨r, hr⟩ := Option.isSome_iff_exists.1 (show (process sampleEnv b!"#pragma version 4\nargs").isSome by decide +kernel)
  refine ⟨r, hr, ?_⟩
  have := congrArg (Option.map fun r : ProcessResult => decide (⟨.version 5 4, 1, 0, 4⟩ ∈ r.diagnostics)) hr
  rw [Option.map_some] at this
  exact of_decide_eq_true (Option.some.inj (this.symm.trans (by decide +kernel)))

/-- **C53** (exactly).  The index of the location of a result is the number of the finding in its file. -/
theorem C53_exact {env : Env} {fs : Files} {r : Sarif.Run} (h : scan env fs = .report r) :
    ∃ (ps : List Bytes) (parts : List (List Result)), ToScan fs.root ps ∧ parts.length = ps.length ∧
      r.results = parts.flatten ∧
      ∀ (k : Nat) (p : Bytes), ps[k]? = some p → ∃ src res ab part, fs.read p = some src ∧ process env src = some res ∧
        fs.abs p = some ab ∧ parts[k]? = some part ∧ part.length = res.diagnostics.length ∧
        ∀ (i : Nat) (d : Diag), res.diagnostics[i]? = some d →
          ∃ x, part[i]? = some x ∧ Reports r.rules (fileUri ab) d x ∧ x.index = i := by
  unfold scan at h
  split at h
  · cases h
  · rename_i ps hps
    obtain ⟨h1, us, parts, h2, h3, h4, h5, h6⟩ := scanLoop_report h
    refine ⟨ps, parts, toScan_paths.1 hps, h5, by simpa using h3, ?_⟩
    intro k p hk
    obtain ⟨src, res, ab, part, g1, g2, g3, g4, g5, g6⟩ := h6 k p hk
    refine ⟨src, res, ab, part, g1, g2, g3, g5, by rw [g6]; simp, ?_⟩
    intro i d hd
    refine ⟨result (fileUri ab) d i, ?_, ?_, rfl⟩
    · rw [g6, List.getElem?_map, List.getElem?_zipIdx, hd]
      simp
    · rw [h1]; exact reports_result _ _ _

example : ∃ r, scan sampleEnv sampleFiles = .report r := ⟨_, rfl⟩

open Teal.Dap in
/-- **C59** (exactly, the total).  Whatever is said about frames, their total number is said to be one; there are none
for a thread that does not exist or without a program. -/
theorem C59_exact {env : Env} {d : Dbg} {seq : Int} {a : Option Int} {r : Outcome} (h : Handles env d ⟨seq, .stackTrace a⟩ r) :
    (∀ o ∈ r.outs, ∃ fs, o.body = .frames fs 1) ∧
    ((∀ mc, d.vm = some mc → ∀ b ∈ mc.tvm.branches, a ≠ some (b.id : Int)) → ∀ o ∈ r.outs, o.body = .frames [] 1) := by
  cases h with
  | plain _ h =>
    unfold Dbg.handle at h
    dsimp only at h
    split at h
    · cases h
      exact ⟨by simp [Dbg.replies, Dbg.reply], by simp [Dbg.replies, Dbg.reply]⟩
    · cases h
      exact ⟨by simp, by simp⟩
    · rename_i mc t hm _
      cases h
      refine ⟨by simp [Dbg.replies, Dbg.reply], fun hno => ?_⟩
      have hfr : frames d t = [] := by
        unfold frames
        rw [hm]
        dsimp only
        rw [List.filter_eq_nil_iff.2]
        · rfl
        · intro b hb
          have := hno mc hm b hb
          simp only [decide_eq_true_eq]
          intro hbt
          exact this (by rw [hbt])
      simp [Dbg.replies, Dbg.reply, hfr]
  | continue_ _ h => cases h

end Teal.Props
