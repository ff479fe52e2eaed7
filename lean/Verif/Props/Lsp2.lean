import Verif.Props.Lsp
import Verif.Lemmas.Atoi

/-!
# Properties of the language server: shutdown and responses
-/

namespace Teal.Props

open Teal Teal.Lsp Teal.Lsp.Spec

/-! ## C47 -/

/-- C47: once the server has been shut down, everything but the notifications it still accepts is
refused: nothing is written and nothing changes. -/
theorem C47_refused (h : Host) (ms : List (Choice × Msg)) (x : Choice × Msg)
    (hrun : Running h ms) (hshut : ∃ y ∈ ms, IsShutdown y.2) (hx : ¬ StillAccepted x.2.call) :
    run h (ms ++ [x]) = run h ms := by
  have hs := (shutdown_iff h ms hrun).2 hshut
  have hh : ∃ o, handle h x.1 (run h ms).st x.2 = some o ∧ o.st = (run h ms).st ∧ o.sent = [] := by
    obtain ⟨ch, resp, id, call⟩ := x
    cases resp with
    | true => exact ⟨_, rfl, rfl, rfl⟩
    | false =>
      cases call with
      | initialized => exact absurd .initialized hx
      | exit => exact absurd .exit hx
      | didOpen p => exact absurd (.didOpen p) hx
      | didChange p => exact absurd (.didChange p) hx
      | didSave ok => exact absurd (.didSave ok) hx
      | _ => exact ⟨_, by simp only [handle, hs]; rfl, rfl, rfl⟩
  obtain ⟨o, ho, h1, h2⟩ := hh
  rw [run_running hrun, ho]
  simp only [h1, h2, List.append_nil]

/-- C47: the first exit notification stops the server, whatever comes behind it; the exit code is 0
if a shutdown request was received before it, and 1 if not. -/
theorem C47_exit (h : Host) (ms ms' : List (Choice × Msg)) (x : Choice × Msg)
    (hrun : Running h ms) (hx : IsExit x.2) :
    let s := run h (ms ++ x :: ms')
    s.st.exit = true ∧ s.crashed = false ∧ s.sent = (run h ms).sent ∧
    ((∃ y ∈ ms, IsShutdown y.2) → s.st.exitCode = 0) ∧
    ((¬ ∃ y ∈ ms, IsShutdown y.2) → s.st.exitCode = 1) := by
  have hcode : ∀ ms, Running h ms → (run h ms).st.exitCode = 0 := by
    refine snoc_induct ?_ ?_
    · intro _; rfl
    · intro ms y ih hr
      obtain ⟨hr', o, ho, hst, _⟩ := running_snoc hr
      have hf := handle_flags ho
      have he := hf.exit
      rw [← hst, hr.2] at he
      have : ¬ IsExit y.2 := by
        intro hy; simp [hy] at he
      rw [hst, hf.exitCode, if_neg (fun h => this h.1)]
      exact ih hr'
  have h1 := run_running hrun x
  have hh : handle h x.1 (run h ms).st x.2 = some { st := { (run h ms).st with
      exit := true, exitCode := if (run h ms).st.shutdown then (run h ms).st.exitCode else 1 } } := by
    obtain ⟨ch, resp, id, call⟩ := x
    obtain ⟨rfl, rfl⟩ := hx
    rfl
  rw [hh] at h1
  have hstop : run h (ms ++ x :: ms') = run h (ms ++ [x]) := by
    rw [show ms ++ x :: ms' = (ms ++ [x]) ++ ms' by simp]
    exact run_stopped (by rw [h1]; simp) ms'
  dsimp only
  rw [hstop, h1]
  refine ⟨rfl, hrun.1, by simp, ?_, ?_⟩
  · intro hs
    have := (shutdown_iff h ms hrun).2 hs
    simp only [this, if_true]
    exact hcode ms hrun
  · intro hs
    have : (run h ms).st.shutdown = false := by
      rw [← Bool.not_eq_true, shutdown_iff h ms hrun]; exact hs
    simp only [this]
    rfl

/-- A session that is shut down: two documents, a rename, then the shutdown request. -/
def sampleDown : List (Choice × Msg) :=
  [(sampleChoice, ⟨false, b!"1", .initialize (.given none)⟩),
   (sampleChoice, ⟨false, b!"null", .didOpen (.given (b!"u", b!"b x\nx:"))⟩),
   (sampleChoice, ⟨false, b!"2", .query (.given (b!"u", .rename ⟨0, 2⟩ b!"y"))⟩),
   (sampleChoice, ⟨false, b!"3", .shutdown⟩)]

/-- The hypotheses of `C47_refused` and `C47_exit` are met. -/
example : Running sampleHost sampleDown ∧ (∃ y ∈ sampleDown, IsShutdown y.2) ∧
    ¬ StillAccepted (.query (.given (b!"u", .codeLens))) ∧
    (run sampleHost sampleDown).sent.length = 3 ∧
    (run sampleHost (sampleDown ++ [(sampleChoice, ⟨false, b!"null", .exit⟩)])).st.exitCode = 0 ∧
    (run sampleHost [(sampleChoice, ⟨false, b!"null", .exit⟩)]).st.exitCode = 1 := by
  refine ⟨⟨by decide +kernel, by decide +kernel⟩, ⟨(sampleChoice, ⟨false, b!"3", .shutdown⟩), by simp [sampleDown], rfl, rfl⟩, ?_, by decide +kernel,
    by decide +kernel, by decide +kernel⟩
  rintro ⟨⟩

/-! ## C48 -/

/-- C48 (partial, with the theorems that follow): a message makes the server write at most one
thing: a response with the id of the message, if that is a request other than the execution of a
command, or a request of its own, if a command is executed.  Notifications and responses are never
answered. -/
theorem C48_at_most_one_partial (h : Host) (ms : List (Choice × Msg)) (x : Choice × Msg) :
    (run h (ms ++ [x])).sent = (run h ms).sent ∨
    ∃ s, (run h (ms ++ [x])).sent = (run h ms).sent ++ [s] ∧ x.2.response = false ∧
      ¬ IsNotification x.2.call ∧
      (responseTo s = some x.2.id ∨ responseTo s = none ∧ ∃ p, x.2.call = .executeCommand p) := by
  by_cases hr : Running h ms
  · rw [run_running hr]
    cases hh : handle h x.1 (run h ms).st x.2 with
    | none => exact .inl rfl
    | some o =>
      rcases (handle_flags hh).sent with ⟨h1, _⟩ | ⟨s, h1, h2, _, _, _, h3, h4, _⟩ | ⟨l, u, es, h1, _, _, h3, p, h4⟩
      · exact .inl (by simp [h1])
      · exact .inr ⟨s, by simp [h1], h3, h4, .inl h2⟩
      · refine .inr ⟨.applyEdit (formatUint ((run h ms).st.id + 1)) l u es, by simp only [h1], h3, ?_, .inr ⟨rfl, p, h4⟩⟩
        rw [h4]; rintro ⟨⟩
  · left
    rw [run_stopped]
    unfold Running at hr
    cases h1 : (run h ms).crashed with
    | true => rfl
    | false =>
      cases h2 : (run h ms).st.exit with
      | true => rfl
      | false => exact absurd ⟨h1, h2⟩ hr

/-- C48: the ids of the server's own requests never repeat. -/
theorem C48_own_ids (h : Host) (ms : List (Choice × Msg)) :
    ((run h ms).sent.filterMap requestId).Nodup := by
  suffices hs : ∀ ms, ((run h ms).sent.filterMap requestId) =
      (List.range (run h ms).st.id).map fun i => formatUint (i + 1) by
    rw [hs]
    refine (List.pairwise_map).2 (List.nodup_range.imp ?_)
    intro a b hab hf
    have := formatUint_inj hf
    omega
  refine snoc_induct rfl ?_
  intro ms x ih
  by_cases hr : Running h ms
  · rw [run_running hr]
    cases hh : handle h x.1 (run h ms).st x.2 with
    | none => exact ih
    | some o =>
      simp only [List.filterMap_append, ih]
      rcases (handle_flags hh).sent with ⟨h1, h2⟩ | ⟨s, h1, _, h3, h2, _⟩ | ⟨_, u, es, h1, h2, _⟩
      · rw [h1, h2]; simp
      · rw [h1, h2]; simp [h3]
      · rw [h1, h2, List.range_succ]; simp [requestId]
  · rw [run_stopped]
    · exact ih
    · unfold Running at hr
      cases h1 : (run h ms).crashed with
      | true => rfl
      | false =>
        cases h2 : (run h ms).st.exit with
        | true => rfl
        | false => exact absurd ⟨h1, h2⟩ hr

theorem ops_line {env : Env} {src : Bytes} {r : ProcessResult} (h : process env src = some r) :
    ∀ t ∈ r.ops, r.lines.getD t.l [] ≠ [] := by
  intro t ht
  obtain ⟨os, hr, ha⟩ := process_run h
  obtain ⟨lds, -, -, -, -, -, -, hl, -, ho, -⟩ := assemble_eq ha
  rw [ho] at ht
  obtain ⟨o, ho1, ho2⟩ := List.mem_filterMap.1 ht
  obtain ⟨s', line, hline, hf⟩ := hr.mem o ho1
  rw [hf.opTok, Option.map_eq_some_iff] at ho2
  obtain ⟨⟨t', e⟩, hi, rfl⟩ := ho2
  have hmem : t' ∈ line := by
    unfold instrOf at hi
    split at hi
    · cases hi
    · split at hi
      · simp only [Option.map_eq_some_iff, Prod.mk.injEq] at hi
        obtain ⟨a, _, rfl, _⟩ := hi
        simp
      · cases hi
  obtain ⟨k, hk⟩ := List.mem_iff_getElem?.1 hline
  obtain ⟨h1, rfl⟩ := (linesOf_get src k line).1 hk
  have := (mem_lineTokens hmem).2
  dsimp only
  rw [hl, this, List.getD_eq_getElem?_getD, hk]
  intro hn
  simp only [Option.getD_some] at hn
  rw [hn] at hmem
  cases hmem

theorem argAt_some {r : ProcessResult} {l c : Int} (hl : 0 ≤ l) (hne : r.lines.getD l.toNat [] ≠ []) :
    ∃ a, argAt r l c = some a := by
  unfold argAt
  split
  · exact ⟨_, rfl⟩
  · rw [if_neg (by omega)]
    split
    · rename_i h; exact absurd h hne
    · dsimp only
      split
      · exact ⟨_, rfl⟩
      · split
        · split <;> split <;> exact ⟨_, rfl⟩
        · split <;> split <;> exact ⟨_, rfl⟩

theorem inlayHints_some {r : ProcessResult} {rg : Range} (h : 0 ≤ rg.startLine) : ∃ a, Teal.inlayHints r rg = some a := by
  unfold Teal.inlayHints
  rw [if_neg (by omega)]
  exact ⟨_, rfl⟩

theorem fieldDoc_none {g : FieldGroup} {s : Bytes} (h : fieldDoc g s = none) :
    ∃ n : Int, Teal.Spec.SignedDecimal s n ∧ n < 0 := by
  unfold fieldDoc at h
  split at h
  · cases h
  · split at h
    · cases h
    · split at h
      · cases h
      · rename_i v hv
        split at h
        · rename_i hneg
          exact ⟨v, ((atoi_iff s v).1 hv).1, hneg⟩
        · split at h <;> cases h

theorem immAt_mem {ln : List Token} {c : Int} {t : Token} {i : Nat} (h : immAt ln c = some (t, i)) :
    t ∈ ln ∧ (t.b : Int) ≤ c ∧ c ≤ t.e := by
  unfold immAt at h
  split at h
  · rename_i t' i' hf
    cases h
    have h1 := List.mem_of_find?_eq_some hf
    have h2 := List.find?_some hf
    simp only [Bool.and_eq_true, decide_eq_true_eq] at h2
    rw [List.mk_mem_zipIdx_iff_getElem?] at h1
    exact ⟨List.mem_of_mem_drop (List.mem_of_getElem? h1), h2.1, h2.2⟩
  · cases h

theorem lines_mem {env : Env} {src : Bytes} {r : ProcessResult} (h : process env src = some r) {k : Nat} {t : Token}
    (ht : t ∈ r.lines.getD k []) : t ∈ (readTokens src).1 ∧ t.l = k := by
  obtain ⟨os, hr, ha⟩ := process_run h
  obtain ⟨lds, -, -, -, -, -, -, hl, -⟩ := assemble_eq ha
  rw [hl, List.getD_eq_getElem?_getD] at ht
  cases hk : (linesOf src)[k]? with
  | none => rw [hk] at ht; cases ht
  | some line =>
    rw [hk] at ht
    obtain ⟨_, rfl⟩ := (linesOf_get src k line).1 hk
    exact mem_lineTokens ht

theorem answer_some {env : Env} {h : Host} {ch : Choice} {cfg : Config} {u s : Bytes} {r : ProcessResult}
    (hp : process env s = some r) (q : Query) (hq : ∀ l ∈ Query.lines q, 0 ≤ l) (hn : ¬ OverNegative s q) :
    ∃ a, answer h ch cfg u s r q = some a := by
  cases q with
  | inlayHint rg =>
    obtain ⟨a, ha⟩ := inlayHints_some (r := r) (rg := rg.range) (hq rg.start.line (by simp [Query.lines]))
    simp only [answer, ha]; exact ⟨_, rfl⟩
  | codeAction rg =>
    obtain ⟨a, ha⟩ := inlayHints_some (r := r) (rg := rg.range) (hq rg.start.line (by simp [Query.lines]))
    simp only [answer, codeActions, ha]; exact ⟨_, rfl⟩
  | completion p =>
    have hl := hq p.line (by simp [Query.lines])
    suffices ∃ a, completions ch r p = some a by
      obtain ⟨a, ha⟩ := this
      simp only [answer, ha]; exact ⟨_, rfl⟩
    unfold completions
    rw [if_neg (by omega)]
    dsimp only
    split
    · exact ⟨_, rfl⟩
    · rename_i t ts hts
      split
      · exact ⟨_, rfl⟩
      · obtain ⟨⟨a, i⟩, ha⟩ := argAt_some (r := r) (c := p.character) hl (by rw [hts]; simp)
        rw [ha]
        cases a <;> exact ⟨_, rfl⟩
  | hover p =>
    have hl := hq p.line (by simp [Query.lines])
    suffices ∃ a, docAt r p = some a by
      obtain ⟨a, ha⟩ := this
      simp only [answer, ha]; exact ⟨_, rfl⟩
    cases hd : docAt r p with
    | some a => exact ⟨a, rfl⟩
    | none =>
      refine absurd ?_ hn
      unfold docAt at hd
      split at hd
      · cases hd
      · rename_i hlt
        rw [if_neg (by omega)] at hd
        split at hd
        · cases hd
        · rename_i op rest hline
          split at hd
          · cases hd
          · split at hd
            · cases hd
            · split at hd
              · cases hd
              · rename_i t i himm
                dsimp only at hd
                split at hd
                · rename_i f arr harg
                  obtain ⟨n, h1, h2⟩ := fieldDoc_none hd
                  obtain ⟨h3, h4, h5⟩ := immAt_mem himm
                  have hmem : t ∈ r.lines.getD p.line.toNat [] := by rw [hline]; exact h3
                  obtain ⟨h6, h7⟩ := lines_mem hp hmem
                  exact ⟨t, h6, n, by omega, h4, h5, h1, h2⟩
                · cases hd
  | signatureHelp p =>
    simp only [answer]
    split
    · exact ⟨_, rfl⟩
    · rename_i op hop
      split
      · have h1 := List.mem_of_find?_eq_some hop
        have h2 := List.find?_some hop
        simp only [decide_eq_true_eq] at h2
        obtain ⟨a, ha⟩ := argAt_some (r := r) (l := p.line) (c := p.character) (by omega) (by
          rw [← h2]; exact ops_line hp op h1)
        rw [ha]; exact ⟨_, rfl⟩
      · exact ⟨_, rfl⟩
  | _ => exact ⟨_, rfl⟩

/-- C48 (partial): a request that is well formed, whose document is open, whose line numbers are
not negative, that is not a hover over a negative number, and whose text the analysis can cope with, gets a response with its id. -/
theorem C48_answered_partial (h : Host) (ms : List (Choice × Msg)) (x : Choice × Msg)
    (hrun : Running h ms) (hshut : ¬ ∃ y ∈ ms, IsShutdown y.2)
    (hx : Answerable (ms.map (·.2)) x.2)
    (hproc : ∀ u t mp, Holds (ms.map (·.2)) u t → process ⟨h.addrOk, mp⟩ t ≠ none) :
    ∃ r, (run h (ms ++ [x])).sent = (run h ms).sent ++ [.reply x.2.id r] := by
  have hs : (run h ms).st.shutdown = false := by
    rw [← Bool.not_eq_true, shutdown_iff h ms hrun]; exact hshut
  have inv := session_inv h ms hrun hs
  rw [run_running hrun]
  suffices hh : ∃ r st, handle h x.1 (run h ms).st x.2 = some { st := st, sent := [.reply x.2.id r] } by
    obtain ⟨r, st, hh⟩ := hh
    rw [hh]; exact ⟨r, rfl⟩
  obtain ⟨ch, m⟩ := x
  have hres : ∀ u d, (run h ms).st.docs u = some d → ∃ st r mp, results h ch (run h ms).st u d = some (st, r) ∧
      process ⟨h.addrOk, mp⟩ d.s = some r := by
    intro u d hd
    unfold results
    cases hr : d.res with
    | some r =>
      obtain ⟨y, _, hp⟩ := inv.cache u d r hd hr
      exact ⟨_, _, _, rfl, hp⟩
    | none =>
      cases hp : process ⟨h.addrOk, ch.maps⟩ d.s with
      | none => exact absurd hp (hproc u d.s _ ((inv.texts u d.s).2 ⟨d, hd, rfl⟩))
      | some r => exact ⟨_, _, _, rfl, hp⟩
  cases hx with
  | shutdown id => exact ⟨.emptyList, { (run h ms).st with shutdown := true }, by simp [handle, handleRequest, hs]⟩
  | «initialize» id o =>
    simp only [handle, handleRequest, hs, Bool.false_eq_true, if_false]
    cases o <;> exact ⟨_, _, rfl⟩
  | diagnostic id u =>
    simp only [handle, handleRequest, hs, Bool.false_eq_true, if_false]
    cases hd : (run h ms).st.docs u with
    | none => exact ⟨_, _, rfl⟩
    | some d =>
      obtain ⟨st, r, _, h1, _⟩ := hres u d hd
      simp only [h1]
      exact ⟨_, _, rfl⟩
  | query id u t q hu hq hn =>
    obtain ⟨d, hd, rfl⟩ := (inv.texts u t).1 hu
    simp only [handle, handleRequest, hs, Bool.false_eq_true, if_false, hd]
    obtain ⟨st, r, _, h1, h2⟩ := hres u d hd
    simp only [h1]
    obtain ⟨a, ha⟩ := answer_some (h := h) (ch := ch) (cfg := st.config) (u := u) h2 q hq hn
    rw [ha]
    exact ⟨_, _, rfl⟩

/-- The hypotheses of `C48_answered_partial` are met. -/
example : Running sampleHost sampleSession ∧ (¬ ∃ y ∈ sampleSession, IsShutdown y.2) ∧
    Answerable (sampleSession.map (·.2)) ⟨false, b!"9", .query (.given (b!"u", .rename ⟨0, 2⟩ b!"y"))⟩ ∧
    (run sampleHost (sampleSession ++
      [(sampleChoice, ⟨false, b!"9", .query (.given (b!"u", .rename ⟨0, 2⟩ b!"y"))⟩)])).sent.getLast? =
      some (.reply b!"9" (.workspaceEdit b!"u" [⟨Lsp.onLine 1 0 1, b!"y"⟩, ⟨Lsp.onLine 0 2 3, b!"y"⟩])) := by
  refine ⟨⟨by decide +kernel, by decide +kernel⟩, ?_, .query _ _ _ _ sample_holds (by simp [Query.lines]) (by simp [OverNegative]), by decide +kernel⟩
  rintro ⟨y, hy, h⟩
  revert h
  revert y
  decide +kernel

/-- **C48 is false of the code**: a hover on a document that is not open, an unknown method and the
execution of a command get no response, and a hover on a negative line or over a negative number stops the server. -/
theorem C48_false :
    (run sampleHost [(sampleChoice, ⟨false, b!"1", .query (.given (b!"u", .hover ⟨0, 0⟩))⟩)]).sent = [] ∧
    (run sampleHost [(sampleChoice, ⟨false, b!"1", .unknown b!"textDocument/references"⟩)]).sent = [] ∧
    (run sampleHost [(sampleChoice, ⟨false, b!"null", .didOpen (.given (b!"u", b!"b x\nx:"))⟩),
      (sampleChoice, ⟨false, b!"1", .executeCommand (.given (some [.lineRemove b!"u" 1]))⟩)]).sent.filterMap
        responseTo = [] ∧
    (run sampleHost [(sampleChoice, ⟨false, b!"null", .didOpen (.given (b!"u", b!"b x\nx:"))⟩),
      (sampleChoice, ⟨false, b!"1", .query (.given (b!"u", .hover ⟨-1, 0⟩))⟩)]).crashed = true ∧
    (run sampleHost [(sampleChoice, ⟨false, b!"null", .didOpen (.given (b!"u", b!"txn -1"))⟩),
      (sampleChoice, ⟨false, b!"1", .query (.given (b!"u", .hover ⟨0, 5⟩))⟩)]).crashed = true := by
  refine ⟨?_, ?_, ?_, ?_, ?_⟩ <;> decide +kernel

end Teal.Props
