import Verif.Lemmas.Lsp
import Verif.Props.Process

/-!
# Properties of the language server: documents, shutdown, responses
-/

namespace Teal.Props

open Teal Teal.Lsp Teal.Lsp.Spec

/-- C46: however the messages before it went, a request about a document is answered as by a
server that got nothing but the same `initialize` requests and was then opened on the text the
document holds.  The text is analysed in the order of map iteration `mp` found while one of the
messages was handled. -/
theorem C46 (h : Host) (ms : List (Choice × Msg)) (ch : Choice) (m : Msg) (u t : Bytes)
    (hrun : Running h ms) (hshut : ¬ ∃ x ∈ ms, IsShutdown x.2)
    (hm : Asks m u) (ht : Holds (ms.map (·.2)) u t) :
    ∃ mp ∈ (ms ++ [(ch, m)]).map (·.1.maps),
      reaction h ms (ch, m) =
        reaction h (ms.filter (fun x => isInit x.2) ++ [(ch, ⟨false, [], .didOpen (.given (u, t))⟩)])
          ({ ch with maps := mp }, m) := by
  have hs : (run h ms).st.shutdown = false := by
    rw [← Bool.not_eq_true, shutdown_iff h ms hrun]; exact hshut
  have inv := session_inv h ms hrun hs
  obtain ⟨d, hd, rfl⟩ := (inv.texts u t).1 ht
  -- the fresh server
  have hin : ∀ x ∈ ms.filter (fun x => isInit x.2), isInit x.2 = true := fun x hx => (List.mem_filter.1 hx).2
  obtain ⟨hr0, hs0⟩ := inits_run h _ hin
  have inv0 := session_inv h _ hr0 hs0
  generalize hfs : ms.filter (fun x => isInit x.2) = fs at *
  have hrun1 := run_running hr0 (ch, ⟨false, [], .didOpen (.given (u, d.s))⟩)
  have hhandle : handle h ch (run h fs).st ⟨false, [], .didOpen (.given (u, d.s))⟩ =
      some { st := (run h fs).st.put u (some ⟨d.s, none⟩) } := rfl
  simp only [hhandle] at hrun1
  have hr1 : Running h (fs ++ [(ch, ⟨false, [], .didOpen (.given (u, d.s))⟩)]) := by
    unfold Running; rw [hrun1]; exact ⟨hr0.1, hr0.2⟩
  have hd1 : (run h (fs ++ [(ch, ⟨false, [], .didOpen (.given (u, d.s))⟩)])).st.docs u = some ⟨d.s, none⟩ := by
    rw [hrun1]; simp [put_docs]
  have hs1 : (run h (fs ++ [(ch, ⟨false, [], .didOpen (.given (u, d.s))⟩)])).st.shutdown = false := by
    rw [hrun1]; exact hs0
  have hc1 : (run h ms).st.config = (run h (fs ++ [(ch, ⟨false, [], .didOpen (.given (u, d.s))⟩)])).st.config := by
    rw [hrun1]
    show _ = (run h fs).st.config
    rw [inv.config, inv0.config, ← hfs, ← cfg_filter (ms.map (·.2)), List.filter_map]
    rfl
  have hres : ∃ mp ∈ (ms ++ [(ch, m)]).map (·.1.maps),
      (results h ch (run h ms).st u d).map (·.2) =
      (results h { ch with maps := mp } (run h (fs ++ [(ch, ⟨false, [], .didOpen (.given (u, d.s))⟩)])).st u ⟨d.s, none⟩).map (·.2) := by
    cases hdr : d.res with
    | none =>
      refine ⟨ch.maps, by simp, ?_⟩
      simp only [results, hdr]
      cases process ⟨h.addrOk, ch.maps⟩ d.s <;> rfl
    | some r =>
      obtain ⟨x, hx, hp⟩ := inv.cache u d r hd hdr
      refine ⟨x.1.maps, List.mem_map_of_mem (List.mem_append_left _ hx), ?_⟩
      simp only [results, hdr, hp]
      rfl
  obtain ⟨mp, hmp, hres⟩ := hres
  refine ⟨mp, hmp, ?_⟩
  have := asks_congr hm hc1 hs hs1 hd hd1 rfl hres
  rw [reaction_running hrun, reaction_running hr1]
  exact outcome_congr this

/-- Insertion into a sorted list. -/
def insertSem (a : SemanticToken) : List SemanticToken → List SemanticToken
  | [] => [a]
  | b :: l => if a.line < b.line ∨ (a.line = b.line ∧ a.index ≤ b.index) then a :: b :: l else b :: insertSem a l

/-- The host used in examples: any address is valid, formatting changes nothing, and tokens are sorted by
insertion. -/
def sampleHost : Host := ⟨fun _ => true, id, fun l => l.foldr insertSem []⟩

/-- The orders of map iteration used in examples. -/
def sampleChoice : Choice := ⟨sampleOrder, id, id, fun _ => .refl _, fun _ => .refl _⟩

/-- A session: a document is opened, asked about, and changed twice; another one is opened and
closed. -/
def sampleSession : List (Choice × Msg) :=
  [(sampleChoice, ⟨false, b!"1", .initialize (.given (some { lensRefs := some false }))⟩),
   (sampleChoice, ⟨false, b!"null", .didOpen (.given (b!"u", b!"int 1"))⟩),
   (sampleChoice, ⟨false, b!"2", .diagnostic (.given b!"u")⟩),
   (sampleChoice, ⟨false, b!"null", .didOpen (.given (b!"v", b!"x:"))⟩),
   (sampleChoice, ⟨false, b!"null", .didChange (.given (some b!"u", [some b!"b x", some b!"b x\nx:"]))⟩),
   (sampleChoice, ⟨false, b!"null", .didClose (.given b!"v")⟩)]

theorem sample_holds : Holds (sampleSession.map (·.2)) b!"u" b!"b x\nx:" := by
  let ms := sampleSession.map (·.2)
  have h2 : Holds (ms.take 2) b!"u" b!"int 1" :=
    .opened (ms.take 1) [] ⟨false, b!"null", .didOpen (.given (b!"u", b!"int 1"))⟩ _ _ ⟨rfl, rfl⟩ (by simp)
  have h3 : Holds (ms.take 2 ++ [⟨false, b!"2", .diagnostic (.given b!"u")⟩]) b!"u" b!"int 1" := by
    refine holds_snoc.2 (.inr (.inr ⟨?_, h2⟩))
    rintro (⟨_, h⟩ | ⟨t, ⟨_, h⟩ | ⟨_, chs, h, _⟩⟩) <;> revert h <;> simp
  have h4 : Holds (ms.take 3 ++ [⟨false, b!"null", .didOpen (.given (b!"v", b!"x:"))⟩]) b!"u" b!"int 1" := by
    refine holds_snoc.2 (.inr (.inr ⟨?_, h3⟩))
    rintro (⟨_, h⟩ | ⟨t, ⟨_, h⟩ | ⟨_, chs, h, _⟩⟩) <;> revert h <;> simp
  have h5 : Holds (ms.take 4 ++ [⟨false, b!"null", .didChange (.given (some b!"u", [some b!"b x", some b!"b x\nx:"]))⟩])
      b!"u" b!"b x\nx:" :=
    holds_snoc.2 (.inr (.inl ⟨⟨rfl, _, rfl, rfl⟩, _, h4⟩))
  refine holds_snoc (ms := ms.take 5) (m := ⟨false, b!"null", .didClose (.given b!"v")⟩) |>.2 (.inr (.inr ⟨?_, h5⟩))
  rintro (⟨_, h⟩ | ⟨t, ⟨_, h⟩ | ⟨_, chs, h, _⟩⟩) <;> revert h <;> simp

/-- The hypotheses of `C46` are met, and the reaction is not trivial. -/
example : Running sampleHost sampleSession ∧ (¬ ∃ x ∈ sampleSession, IsShutdown x.2) ∧
    Holds (sampleSession.map (·.2)) b!"u" b!"b x\nx:" ∧
    Asks ⟨false, b!"9", .query (.given (b!"u", .documentHighlight ⟨0, 2⟩))⟩ b!"u" ∧
    reaction sampleHost sampleSession
      (sampleChoice, ⟨false, b!"9", .query (.given (b!"u", .documentHighlight ⟨0, 2⟩))⟩) =
      ([.reply b!"9" (.highlights [Lsp.onLine 1 0 1, Lsp.onLine 0 2 3])], false) := by
  refine ⟨⟨by decide +kernel, by decide +kernel⟩, ?_, sample_holds, .query _ _ _, by decide +kernel⟩
  rintro ⟨y, hy, h⟩
  revert h
  revert y
  decide +kernel

/-- C46, the other case: while a document is not open, requests about it change nothing, and the
only answer is the empty list of diagnostics. -/
theorem C46_closed (h : Host) (ms : List (Choice × Msg)) (ch : Choice) (m : Msg) (u : Bytes)
    (hrun : Running h ms) (hshut : ¬ ∃ x ∈ ms, IsShutdown x.2)
    (hm : Asks m u) (ht : ∀ t, ¬ Holds (ms.map (·.2)) u t) :
    (run h (ms ++ [(ch, m)])).st = (run h ms).st ∧
    reaction h ms (ch, m) =
      (if m.call = .diagnostic (.given u) then [.reply m.id (.diagnostics [])] else [], false) := by
  have hs : (run h ms).st.shutdown = false := by
    rw [← Bool.not_eq_true, shutdown_iff h ms hrun]; exact hshut
  have inv := session_inv h ms hrun hs
  have hd : (run h ms).st.docs u = none := by
    cases hd : (run h ms).st.docs u with
    | none => rfl
    | some d => exact absurd ((inv.texts u d.s).2 ⟨d, hd, rfl⟩) (ht _)
  rw [reaction_running hrun, run_running hrun]
  dsimp only
  cases hm with
  | diagnostic id u =>
    simp only [handle, handleRequest, hs, hd, Bool.false_eq_true, if_false]
    exact ⟨by trivial, rfl⟩
  | query id u q =>
    simp only [handle, handleRequest, hs, hd, Bool.false_eq_true, if_false]
    exact ⟨by trivial, rfl⟩
  | _ =>
    simp only [handle, handleRequest, execute, hs, hd, Bool.false_eq_true, if_false]
    exact ⟨by trivial, rfl⟩

theorem sample_closed : ∀ t, ¬ Holds (sampleSession.map (·.2)) b!"v" t := by
  intro t h
  rw [show sampleSession.map (·.2) = (sampleSession.map (·.2)).take 5 ++ [⟨false, b!"null", .didClose (.given b!"v")⟩] from rfl,
    holds_snoc] at h
  rcases h with h | ⟨h, _⟩ | ⟨h, _⟩
  · exact closes_not_opens ⟨rfl, rfl⟩ h
  · exact closes_not_changes ⟨rfl, rfl⟩ h
  · exact h (.inl ⟨rfl, rfl⟩)

/-- The hypotheses of `C46_closed` are met by document `v`, which was open. -/
example : Running sampleHost sampleSession ∧ (∀ t, ¬ Holds (sampleSession.map (·.2)) b!"v" t) ∧
    reaction sampleHost sampleSession (sampleChoice, ⟨false, b!"9", .diagnostic (.given b!"v")⟩) =
      ([.reply b!"9" (.diagnostics [])], false) :=
  ⟨⟨by decide +kernel, by decide +kernel⟩, sample_closed, by decide +kernel⟩

end Teal.Props
