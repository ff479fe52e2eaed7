import Verif.Spec.Lsp

/-! # Lemmas about sessions of the language server -/

namespace Teal.Lsp

open Teal Teal.Lsp.Spec

theorem run_snoc (h : Host) (ms : List (Choice × Msg)) (x : Choice × Msg) :
    run h (ms ++ [x]) = (run h ms).next h x := by simp [run]

theorem run_append (h : Host) (ms ms' : List (Choice × Msg)) :
    run h (ms ++ ms') = ms'.foldl (Session.next h) (run h ms) := by simp [run]

theorem running_snoc {h : Host} {ms : List (Choice × Msg)} {x : Choice × Msg}
    (hr : Running h (ms ++ [x])) : Running h ms ∧ ∃ o, handle h x.1 (run h ms).st x.2 = some o ∧
      (run h (ms ++ [x])).st = o.st ∧ (run h (ms ++ [x])).sent = (run h ms).sent ++ o.sent := by
  unfold Running at *
  rw [run_snoc] at *
  unfold Session.next at *
  split at hr
  · rename_i hc
    rw [hr.1, hr.2] at hc; cases hc
  · rename_i hc
    split at hr
    · cases hr.1
    · rename_i o ho
      refine ⟨by simpa using hc, o, ho, ?_⟩
      simp only [hc]; exact ⟨rfl, rfl⟩

theorem run_running {h : Host} {ms : List (Choice × Msg)} (hr : Running h ms) (x : Choice × Msg) :
    run h (ms ++ [x]) = match handle h x.1 (run h ms).st x.2 with
      | none => { run h ms with crashed := true }
      | some o => { run h ms with st := o.st, sent := (run h ms).sent ++ o.sent } := by
  rw [run_snoc]
  unfold Session.next
  rw [if_neg (by rw [hr.1, hr.2]; decide)]
  rfl

theorem run_stopped {h : Host} {ms : List (Choice × Msg)}
    (hr : ((run h ms).crashed || (run h ms).st.exit) = true) (ms' : List (Choice × Msg)) :
    run h (ms ++ ms') = run h ms := by
  rw [run_append]
  induction ms' with
  | nil => rfl
  | cons x xs ih =>
    simp only [List.foldl_cons]
    have : (run h ms).next h x = run h ms := by unfold Session.next; rw [if_pos hr]
    rw [this]; exact ih



/-! ## What one message does -/

/-- Everything but the documents and the ids is the same. -/
structure Same (st st' : State) : Prop where
  config : st'.config = st.config
  shutdown : st'.shutdown = st.shutdown
  exit : st'.exit = st.exit
  exitCode : st'.exitCode = st.exitCode

theorem Same.rfl {st : State} : Same st st := ⟨by rfl, by rfl, by rfl, by rfl⟩

theorem put_same (st : State) (u : Bytes) (d : Option Doc) : Same st (st.put u d) := ⟨rfl, rfl, rfl, rfl⟩

theorem put_docs (st : State) (u v : Bytes) (d : Option Doc) :
    (st.put u d).docs v = if v = u then d else st.docs v := rfl

theorem put_put (st : State) (u : Bytes) (d e : Option Doc) : (st.put u d).put u e = st.put u e := by
  unfold State.put
  congr 1
  funext v
  dsimp only
  split <;> rfl

theorem applyChanges_spec (uri : Option Bytes) (chs : List (Option Bytes)) : ∀ (st st' : State) (e : Bool),
    applyChanges st uri chs = some (st', e) →
    (st' = st ∧ ∀ u, uri = some u → chs = [] ∨ st.docs u = none) ∨
    ∃ u d t, uri = some u ∧ st.docs u = some d ∧ chs.getLast? = some (some t) ∧
      st' = st.put u (some ⟨t, none⟩) := by
  induction chs with
  | nil =>
    intro st st' e h
    simp only [applyChanges, Option.some.injEq, Prod.mk.injEq] at h
    exact .inl ⟨h.1.symm, fun _ _ => .inl rfl⟩
  | cons c cs ih =>
    intro st st' e h
    cases uri with
    | none => simp [applyChanges] at h
    | some u =>
      cases hd : st.docs u with
      | none =>
        simp only [applyChanges, hd, Option.some.injEq, Prod.mk.injEq] at h
        refine .inl ⟨h.1.symm, fun v hv => ?_⟩
        cases hv; exact .inr hd
      | some d =>
        cases c with
        | none => simp [applyChanges, hd] at h
        | some t =>
          simp only [applyChanges, hd] at h
          refine .inr ⟨u, d, ?_⟩
          rcases ih _ _ _ h with ⟨h1, h2⟩ | ⟨v, d', t', hv, _, hl, h3⟩
          · rcases h2 u rfl with h4 | h4
            · subst h4
              exact ⟨t, rfl, hd, rfl, h1⟩
            · rw [put_docs, if_pos rfl] at h4; cases h4
          · cases hv
            refine ⟨t', rfl, hd, ?_, ?_⟩
            · cases cs with
              | nil => simp at hl
              | cons a b => rw [List.getLast?_cons_cons]; exact hl
            · rw [h3, put_put]

theorem results_spec {h : Host} {ch : Choice} {st st' : State} {u : Bytes} {d : Doc} {r : ProcessResult}
    (hh : results h ch st u d = some (st', r)) :
    (d.res = some r ∧ st' = st) ∨
    (d.res = none ∧ process ⟨h.addrOk, ch.maps⟩ d.s = some r ∧ st' = st.put u (some { d with res := some r })) := by
  unfold results at hh
  split at hh
  · rename_i r' hr
    simp only [Option.some.injEq, Prod.mk.injEq] at hh
    exact .inl ⟨by rw [hr, hh.2], hh.1.symm⟩
  · rename_i hr
    split at hh
    · cases hh
    · rename_i r' hp
      simp only [Option.some.injEq, Prod.mk.injEq] at hh
      obtain ⟨h1, h2⟩ := hh
      subst h2
      exact .inr ⟨hr, hp, h1.symm⟩

/-- What a message does to the documents. -/
inductive DocsStep (h : Host) (ch : Choice) (st : State) (m : Msg) : State → Prop
  | none (st' : State) (hd : st'.docs = st.docs)
      (hm : ∀ u, ¬ Touches m u ∨ st.shutdown = true ∨ ((∃ t, Changes m u t) ∧ st.docs u = none)) :
      DocsStep h ch st m st'
  | opened (u t : Bytes) (hm : Opens m u t) : DocsStep h ch st m (st.put u (some ⟨t, .none⟩))
  | changed (u t : Bytes) (d : Doc) (hd : st.docs u = some d) (hm : Changes m u t) :
      DocsStep h ch st m (st.put u (some ⟨t, .none⟩))
  | closed (u : Bytes) (hm : Closes m u) : DocsStep h ch st m (st.put u .none)
  | cached (u : Bytes) (d : Doc) (r : ProcessResult) (st' : State) (hd : st.docs u = some d)
      (hr : d.res = .none) (hp : process ⟨h.addrOk, ch.maps⟩ d.s = some r)
      (hm : ∀ u, ¬ Touches m u) (hst : st'.docs = (st.put u (some { d with res := some r })).docs) :
      DocsStep h ch st m st'

theorem not_touches {m : Msg} (h : m.response = true ∨ (∀ p, m.call ≠ .didOpen p) ∧ (∀ p, m.call ≠ .didChange p) ∧
    (∀ p, m.call ≠ .didClose p)) (u : Bytes) : ¬ Touches m u := by
  rintro (⟨h1, h2⟩ | ⟨t, ⟨h1, h2⟩ | ⟨h1, chs, h2, _⟩⟩)
  · rcases h with h | h
    · rw [h] at h1; cases h1
    · exact h.2.2 _ h2
  · rcases h with h | h
    · rw [h] at h1; cases h1
    · exact h.1 _ h2
  · rcases h with h | h
    · rw [h] at h1; cases h1
    · exact h.2.1 _ h2

theorem results_docs {h : Host} {ch : Choice} {st st' st'' : State} {m : Msg} {u : Bytes} {d : Doc}
    {r : ProcessResult} (hd : st.docs u = some d) (hh : results h ch st u d = some (st', r))
    (hm : ∀ u, ¬ Touches m u) (h' : st''.docs = st'.docs) : DocsStep h ch st m st'' := by
  rcases results_spec hh with ⟨_, rfl⟩ | ⟨hn, hp, rfl⟩
  · exact .none _ h' fun u => .inl (hm u)
  · exact .cached u d r _ hd hn hp hm h'

theorem execute_docs {h : Host} {ch : Choice} {st : State} {m : Msg} {c : Command} {o : Step}
    (hm : ∀ u, ¬ Touches m u) (hh : execute h ch st c = some o) : DocsStep h ch st m o.st := by
  have hn : ∀ st' : State, st'.docs = st.docs → DocsStep h ch st m st' :=
    fun st' hs => .none _ hs fun u => .inl (hm u)
  cases c <;> simp only [execute] at hh <;> split at hh
  all_goals first
    | (cases hh; exact hn _ rfl)
    | skip
  all_goals
    rename_i d hd
    simp only [Option.map_eq_some_iff, Prod.exists] at hh
    obtain ⟨st', r, hr, ho⟩ := hh
    subst ho
    exact results_docs hd hr hm rfl

theorem handleRequest_docs {h : Host} {ch : Choice} {st : State} {m : Msg} {o : Step}
    (hm : m.response = false) (ho : ∀ p, m.call ≠ .didOpen p) (hc : ∀ p, m.call ≠ .didChange p)
    (hh : handleRequest h ch st m.id m.call = some o) : DocsStep h ch st m o.st := by
  have hn : (∀ p, m.call ≠ .didClose p) → ∀ st' : State, st'.docs = st.docs → DocsStep h ch st m st' :=
    fun hq st' hs => .none _ hs fun u => .inl (not_touches (.inr ⟨ho, hc, hq⟩) u)
  generalize hcall : m.call = call at *
  cases call with
  | didClose p =>
    cases p with
    | bad =>
      simp only [handleRequest, Option.some.injEq] at hh
      subst hh
      refine .none _ rfl fun u => .inl ?_
      rintro (⟨h1, h2⟩ | ⟨t, ⟨h1, h2⟩ | ⟨h1, chs, h2, _⟩⟩) <;> rw [hcall] at h2 <;> cases h2
    | missing => simp [handleRequest] at hh
    | given u =>
      simp only [handleRequest, Option.some.injEq] at hh
      subst hh
      exact .closed u ⟨hm, hcall⟩
  | executeCommand p =>
    cases p with
    | bad => simp only [handleRequest, Option.some.injEq] at hh; subst hh; exact hn (by simp) _ rfl
    | missing => simp [handleRequest] at hh
    | given a =>
      have hm' : ∀ u, ¬ Touches m u := not_touches (.inr (by rw [hcall]; simp))
      match a with
      | none => simp only [handleRequest, Option.some.injEq] at hh; subst hh; exact hn (by simp) _ rfl
      | some [] => simp only [handleRequest, Option.some.injEq] at hh; subst hh; exact hn (by simp) _ rfl
      | some [c] => exact execute_docs hm' hh
      | some (_ :: _ :: _) =>
        simp only [handleRequest, Option.some.injEq] at hh; subst hh; exact hn (by simp) _ rfl
  | query p =>
    cases p with
    | bad => simp only [handleRequest, Option.some.injEq] at hh; subst hh; exact hn (by simp) _ rfl
    | missing => simp [handleRequest] at hh
    | given a =>
      obtain ⟨u, q⟩ := a
      have hm' : ∀ u, ¬ Touches m u := not_touches (.inr (by rw [hcall]; simp))
      simp only [handleRequest] at hh
      split at hh
      · cases hh; exact hn (by simp) _ rfl
      · rename_i d hd
        split at hh
        · cases hh
        · rename_i st' r hr
          simp only [Option.map_eq_some_iff] at hh
          obtain ⟨a, _, ho⟩ := hh
          subst ho
          exact results_docs hd hr hm' rfl
  | diagnostic p =>
    cases p with
    | bad => simp only [handleRequest, Option.some.injEq] at hh; subst hh; exact hn (by simp) _ rfl
    | missing => simp [handleRequest] at hh
    | given u =>
      have hm' : ∀ u, ¬ Touches m u := not_touches (.inr (by rw [hcall]; simp))
      simp only [handleRequest] at hh
      split at hh
      · cases hh; exact hn (by simp) _ rfl
      · rename_i d hd
        simp only [Option.map_eq_some_iff, Prod.exists] at hh
        obtain ⟨st', r, hr, ho⟩ := hh
        subst ho
        exact results_docs hd hr hm' rfl
  | «initialize» p =>
    cases p <;> simp only [handleRequest, Option.some.injEq] at hh <;> subst hh <;> exact hn (by simp) _ rfl
  | _ => simp only [handleRequest, Option.some.injEq] at hh; subst hh; exact hn (by simp) _ rfl

theorem handle_docs {h : Host} {ch : Choice} {st : State} {m : Msg} {o : Step}
    (hh : handle h ch st m = some o) : DocsStep h ch st m o.st := by
  unfold handle at hh
  by_cases hresp : m.response = true
  · rw [if_pos hresp] at hh
    cases hh
    exact .none _ rfl fun u => .inl (not_touches (.inl hresp) u)
  · rw [if_neg hresp] at hh
    have hresp : m.response = false := by simpa using hresp
    have hreq : (∀ p, m.call ≠ .didOpen p) → (∀ p, m.call ≠ .didChange p) →
        (if st.shutdown = true then some { st := st, err := true : Step } else handleRequest h ch st m.id m.call) = some o →
        DocsStep h ch st m o.st := by
      intro h1 h2 hh
      split at hh
      · rename_i hs
        cases hh
        exact .none _ rfl fun u => .inr (.inl hs)
      · exact handleRequest_docs hresp h1 h2 hh
    have hn : (∀ p, m.call ≠ .didOpen p) → (∀ p, m.call ≠ .didChange p) → (∀ p, m.call ≠ .didClose p) →
        ∀ st' : State, st'.docs = st.docs → DocsStep h ch st m st' :=
      fun ho hc hq st' hs => .none _ hs fun u => .inl (not_touches (.inr ⟨ho, hc, hq⟩) u)
    generalize hcall : m.call = call at *
    cases call with
    | didOpen p =>
      cases p with
      | bad =>
        cases hh
        refine .none _ rfl fun u => .inl ?_
        rintro (⟨h1, h2⟩ | ⟨t, ⟨h1, h2⟩ | ⟨h1, chs, h2, _⟩⟩) <;> rw [hcall] at h2 <;> cases h2
      | missing => cases hh
      | given a =>
        obtain ⟨u, t⟩ := a
        cases hh
        exact .opened u t ⟨hresp, hcall⟩
    | didChange p =>
      cases p with
      | bad =>
        cases hh
        refine .none _ rfl fun u => .inl ?_
        rintro (⟨h1, h2⟩ | ⟨t, ⟨h1, h2⟩ | ⟨h1, chs, h2, _⟩⟩) <;> rw [hcall] at h2 <;> cases h2
      | missing => cases hh
      | given a =>
        obtain ⟨uri, chs⟩ := a
        simp only [Option.map_eq_some_iff, Prod.exists] at hh
        obtain ⟨st', e, ha, ho⟩ := hh
        subst ho
        rcases applyChanges_spec _ _ _ _ _ ha with ⟨rfl, hx⟩ | ⟨u, d, t, rfl, hd, hl, rfl⟩
        · refine .none _ rfl fun u => ?_
          by_cases hu : uri = some u
          · rcases hx u hu with rfl | hx
            · refine .inl ?_
              rintro (⟨h1, h2⟩ | ⟨t, ⟨h1, h2⟩ | ⟨h1, chs, h2, h3⟩⟩) <;> rw [hcall] at h2 <;> cases h2
              cases h3
            · by_cases ht : ∃ t, Changes m u t
              · exact .inr (.inr ⟨ht, hx⟩)
              · refine .inl ?_
                rintro (⟨h1, h2⟩ | ⟨t, ⟨h1, h2⟩ | h1⟩)
                · rw [hcall] at h2; cases h2
                · rw [hcall] at h2; cases h2
                · exact ht ⟨t, h1⟩
          · refine .inl ?_
            rintro (⟨h1, h2⟩ | ⟨t, ⟨h1, h2⟩ | ⟨h1, chs, h2, h3⟩⟩) <;> rw [hcall] at h2 <;> cases h2
            exact hu rfl
        · exact .changed u t d hd ⟨hresp, chs, hcall, hl⟩
    | initialized => cases hh; exact hn (by simp) (by simp) (by simp) _ rfl
    | exit => cases hh; exact hn (by simp) (by simp) (by simp) _ rfl
    | didSave ok => cases hh; exact hn (by simp) (by simp) (by simp) _ rfl
    | _ => exact hreq (by simp) (by simp) hh

instance (m : Msg) : Decidable (IsShutdown m) := by unfold IsShutdown; infer_instance

instance (m : Msg) : Decidable (IsExit m) := by unfold IsExit; infer_instance

/-- The configuration after a message, as long as the server has not been shut down. -/
def cfgStep (c : Config) (m : Msg) : Config :=
  if m.response then c
  else
    match m.call with
    | .initialize (.given (some o)) => o.apply c
    | _ => c

/-- What a message does to the rest of the state, and what is written. -/
structure Flags (st : State) (m : Msg) (o : Step) : Prop where
  shutdown : o.st.shutdown = (st.shutdown || decide (IsShutdown m))
  exit : o.st.exit = (st.exit || decide (IsExit m))
  exitCode : o.st.exitCode = if IsExit m ∧ st.shutdown = false then 1 else st.exitCode
  config : o.st.config = if st.shutdown then st.config else cfgStep st.config m
  sent : (o.sent = [] ∧ o.st.id = st.id) ∨
    (∃ s, o.sent = [s] ∧ responseTo s = some m.id ∧ requestId s = none ∧ o.st.id = st.id ∧ st.shutdown = false ∧
      m.response = false ∧ ¬ IsNotification m.call ∧ ∀ p, m.call ≠ .executeCommand p) ∨
    (∃ label u es, o.sent = [.applyEdit (formatUint (st.id + 1)) label u es] ∧ o.st.id = st.id + 1 ∧
      st.shutdown = false ∧ m.response = false ∧ ∃ p, m.call = .executeCommand p)

theorem results_same {h : Host} {ch : Choice} {st st' : State} {u : Bytes} {d : Doc} {r : ProcessResult}
    (hh : results h ch st u d = some (st', r)) : Same st st' ∧ st'.id = st.id := by
  rcases results_spec hh with ⟨_, rfl⟩ | ⟨_, _, rfl⟩
  · exact ⟨Same.rfl, rfl⟩
  · exact ⟨put_same _ _ _, rfl⟩

/-- A message that is neither `shutdown`, `exit` nor `initialize`, and writes nothing. -/
theorem flags_same {st : State} {m : Msg} {o : Step} (hs : Same st o.st) (hid : o.st.id = st.id)
    (hsent : o.sent = []) (h1 : ¬ IsShutdown m) (h2 : ¬ IsExit m)
    (h3 : m.response = true ∨ ∀ x, m.call ≠ .initialize (.given (some x))) : Flags st m o := by
  refine ⟨by simp [hs.shutdown, h1], by simp [hs.exit, h2], by simp [hs.exitCode, h2], ?_, .inl ⟨hsent, hid⟩⟩
  rw [hs.config]
  have : cfgStep st.config m = st.config := by
    unfold cfgStep
    rcases h3 with h3 | h3
    · rw [if_pos h3]
    · split
      · rfl
      · split
        · rename_i o ho; exact absurd ho (h3 o)
        · rfl
  rw [this]; split <;> rfl

theorem flags_reply {st : State} {m : Msg} {o : Step} (hs : Same st o.st) (hid : o.st.id = st.id)
    (s : Sent) (hsent : o.sent = [s]) (h1 : ¬ IsShutdown m) (h2 : ¬ IsExit m) (hm : m.response = false)
    (h3 : ∀ x, m.call ≠ .initialize (.given (some x))) (hsh : st.shutdown = false)
    (hr : responseTo s = some m.id) (hq : requestId s = none) (hn : ¬ IsNotification m.call)
    (he : ∀ p, m.call ≠ .executeCommand p) : Flags st m o := by
  have h0 := flags_same (st := st) (m := m) (o := ⟨o.st, [], o.err⟩) hs hid rfl h1 h2 (.inr h3)
  exact ⟨h0.shutdown, h0.exit, h0.exitCode, h0.config,
    .inr (.inl ⟨s, hsent, hr, hq, hid, hsh, hm, hn, he⟩)⟩

theorem flags_request {st st' : State} {m : Msg} {label u : Bytes} {es : List TextEdit} (hs : Same st st')
    (hid : st'.id = st.id) (hm : m.response = false) (hsh : st.shutdown = false)
    (hc : ∃ p, m.call = .executeCommand p) : Flags st m (request st' label u es) := by
  obtain ⟨p, hp⟩ := hc
  have h1 : ¬ IsShutdown m := by rintro ⟨_, h⟩; rw [hp] at h; cases h
  have h2 : ¬ IsExit m := by rintro ⟨_, h⟩; rw [hp] at h; cases h
  have h0 := flags_same (st := st) (m := m) (o := ⟨st', [], false⟩) hs hid rfl h1 h2
    (.inr (by rw [hp]; simp))
  refine ⟨h0.shutdown, h0.exit, h0.exitCode, h0.config, .inr (.inr ⟨label, u, es, ?_, ?_, hsh, hm, p, hp⟩)⟩
  · simp only [request]; rw [hid]
  · simp only [request]; rw [hid]

theorem execute_flags {h : Host} {ch : Choice} {st : State} {m : Msg} {c : Command} {o : Step}
    (hm : m.response = false) (hsh : st.shutdown = false) (hc : ∃ p, m.call = .executeCommand p)
    (hh : execute h ch st c = some o) : Flags st m o := by
  obtain ⟨p, hp⟩ := hc
  have hn : Flags st m { st := st, err := true } :=
    flags_same Same.rfl rfl rfl (by rintro ⟨_, h⟩; rw [hp] at h; cases h)
      (by rintro ⟨_, h⟩; rw [hp] at h; cases h) (.inr (by rw [hp]; simp))
  cases c <;> simp only [execute] at hh <;> split at hh
  all_goals first
    | (cases hh; exact hn)
    | (cases hh; exact flags_request Same.rfl rfl hm hsh ⟨p, hp⟩)
    | skip
  all_goals
    rename_i d hd
    simp only [Option.map_eq_some_iff, Prod.exists] at hh
    obtain ⟨st', r, hr, ho⟩ := hh
    subst ho
    exact flags_request (results_same hr).1 (results_same hr).2 hm hsh ⟨p, hp⟩

theorem handleRequest_flags {h : Host} {ch : Choice} {st : State} {m : Msg} {o : Step}
    (hm : m.response = false) (hsh : st.shutdown = false) (hx : m.call ≠ .exit)
    (ho : ∀ p, m.call ≠ .didOpen p) (hc : ∀ p, m.call ≠ .didChange p) (hv : ∀ p, m.call ≠ .didSave p)
    (hi : m.call ≠ .initialized) (hh : handleRequest h ch st m.id m.call = some o) : Flags st m o := by
  have h2 : ¬ IsExit m := fun h => hx h.2
  have hn : ∀ e : Bool, m.call ≠ .shutdown → (∀ x, m.call ≠ .initialize (.given (some x))) →
      Flags st m { st := st, err := e } := by
    intro e hs hi
    exact flags_same Same.rfl rfl rfl (fun h => hs h.2) h2 (.inr hi)
  generalize hcall : m.call = call at *
  cases call with
  | shutdown =>
    simp only [handleRequest, Option.some.injEq] at hh
    subst hh
    have hs : IsShutdown m := ⟨hm, hcall⟩
    refine ⟨by simp [hs], by simp [h2], by simp [h2], ?_, ?_⟩
    · simp [cfgStep, hcall]
    · refine .inr (.inl ⟨_, rfl, rfl, rfl, rfl, hsh, hm, ?_, ?_⟩)
      · rw [hcall]; rintro ⟨⟩
      · rw [hcall]; simp
  | «initialize» p =>
    have h1 : ¬ IsShutdown m := fun h => by have := h.2; rw [hcall] at this; cases this
    have hnot : ¬ IsNotification m.call := by rw [hcall]; rintro ⟨⟩
    have hex : ∀ p, m.call ≠ .executeCommand p := by rw [hcall]; simp
    cases p with
    | bad => simp only [handleRequest, Option.some.injEq] at hh; subst hh; exact hn _ (by simp) (by simp)
    | missing =>
      simp only [handleRequest, Option.some.injEq] at hh
      subst hh
      exact flags_reply ⟨rfl, rfl, rfl, rfl⟩ rfl _ rfl h1 h2 hm (by rw [hcall]; simp) hsh rfl rfl hnot hex
    | given a =>
      cases a with
      | none =>
        simp only [handleRequest, Option.some.injEq] at hh
        subst hh
        exact flags_reply ⟨rfl, rfl, rfl, rfl⟩ rfl _ rfl h1 h2 hm (by rw [hcall]; simp) hsh rfl rfl hnot hex
      | some x =>
        simp only [handleRequest, Option.some.injEq] at hh
        subst hh
        refine ⟨by simp [h1], by simp [h2], by simp [h2], ?_, ?_⟩
        · simp [cfgStep, hcall, hm, hsh]
        · exact .inr (.inl ⟨_, rfl, rfl, rfl, rfl, hsh, hm, hnot, hex⟩)
  | didClose p =>
    cases p with
    | bad => simp only [handleRequest, Option.some.injEq] at hh; subst hh; exact hn _ (by simp) (by simp)
    | missing => simp [handleRequest] at hh
    | given u =>
      simp only [handleRequest, Option.some.injEq] at hh
      subst hh
      refine flags_same (put_same _ _ _) rfl rfl ?_ h2 (.inr (by rw [hcall]; simp))
      rintro ⟨_, h⟩; rw [hcall] at h; cases h
  | executeCommand p =>
    cases p with
    | bad => simp only [handleRequest, Option.some.injEq] at hh; subst hh; exact hn _ (by simp) (by simp)
    | missing => simp [handleRequest] at hh
    | given a =>
      match a with
      | none => simp only [handleRequest, Option.some.injEq] at hh; subst hh; exact hn _ (by simp) (by simp)
      | some [] => simp only [handleRequest, Option.some.injEq] at hh; subst hh; exact hn _ (by simp) (by simp)
      | some [c] => exact execute_flags hm hsh ⟨_, hcall⟩ hh
      | some (_ :: _ :: _) =>
        simp only [handleRequest, Option.some.injEq] at hh; subst hh; exact hn _ (by simp) (by simp)
  | unknownCommand n =>
    simp only [handleRequest, Option.some.injEq] at hh
    subst hh
    refine flags_reply Same.rfl rfl _ rfl ?_ h2 hm (by rw [hcall]; simp) hsh rfl rfl ?_ (by rw [hcall]; simp)
    · rintro ⟨_, h⟩; rw [hcall] at h; cases h
    · rw [hcall]; rintro ⟨⟩
  | query p =>
    cases p with
    | bad => simp only [handleRequest, Option.some.injEq] at hh; subst hh; exact hn _ (by simp) (by simp)
    | missing => simp [handleRequest] at hh
    | given a =>
      obtain ⟨u, q⟩ := a
      simp only [handleRequest] at hh
      split at hh
      · cases hh; exact hn _ (by simp) (by simp)
      · rename_i d hd
        split at hh
        · cases hh
        · rename_i st' r hr
          simp only [Option.map_eq_some_iff] at hh
          obtain ⟨a, _, ho⟩ := hh
          subst ho
          refine flags_reply (results_same hr).1 (results_same hr).2 _ rfl ?_ h2 hm (by rw [hcall]; simp) hsh rfl rfl ?_
            (by rw [hcall]; simp)
          · rintro ⟨_, h⟩; rw [hcall] at h; cases h
          · rw [hcall]; rintro ⟨⟩
  | diagnostic p =>
    have h1 : ¬ IsShutdown m := fun h => by have := h.2; rw [hcall] at this; cases this
    have hnot : ¬ IsNotification m.call := by rw [hcall]; rintro ⟨⟩
    have hex : ∀ p, m.call ≠ .executeCommand p := by rw [hcall]; simp
    cases p with
    | bad => simp only [handleRequest, Option.some.injEq] at hh; subst hh; exact hn _ (by simp) (by simp)
    | missing => simp [handleRequest] at hh
    | given u =>
      simp only [handleRequest] at hh
      split at hh
      · cases hh
        exact flags_reply Same.rfl rfl _ rfl h1 h2 hm (by rw [hcall]; simp) hsh rfl rfl hnot hex
      · rename_i d hd
        simp only [Option.map_eq_some_iff, Prod.exists] at hh
        obtain ⟨st', r, hr, ho⟩ := hh
        subst ho
        exact flags_reply (results_same hr).1 (results_same hr).2 _ rfl h1 h2 hm (by rw [hcall]; simp) hsh rfl rfl
          hnot hex
  | exit => exact absurd rfl hx
  | didOpen p => exact absurd rfl (ho p)
  | didChange p => exact absurd rfl (hc p)
  | didSave p => exact absurd rfl (hv p)
  | initialized => exact absurd rfl hi
  | cancelRequest => simp only [handleRequest, Option.some.injEq] at hh; subst hh; exact hn _ (by simp) (by simp)
  | unknown n => simp only [handleRequest, Option.some.injEq] at hh; subst hh; exact hn _ (by simp) (by simp)

theorem handle_flags {h : Host} {ch : Choice} {st : State} {m : Msg} {o : Step}
    (hh : handle h ch st m = some o) : Flags st m o := by
  unfold handle at hh
  by_cases hresp : m.response = true
  · rw [if_pos hresp] at hh
    cases hh
    refine flags_same Same.rfl rfl rfl ?_ ?_ (.inl hresp)
    · rintro ⟨h, _⟩; rw [hresp] at h; cases h
    · rintro ⟨h, _⟩; rw [hresp] at h; cases h
  · rw [if_neg hresp] at hh
    have hresp : m.response = false := by simpa using hresp
    have hreq : m.call ≠ .exit → (∀ p, m.call ≠ .didOpen p) → (∀ p, m.call ≠ .didChange p) →
        (∀ p, m.call ≠ .didSave p) → m.call ≠ .initialized →
        (if st.shutdown = true then some { st := st, err := true : Step } else handleRequest h ch st m.id m.call) = some o →
        Flags st m o := by
      intro h1 h2 h3 h4 h5 hh
      split at hh
      · rename_i hs
        cases hh
        refine ⟨by simp [hs], ?_, ?_, by simp [hs], .inl ⟨rfl, rfl⟩⟩
        · have : ¬ IsExit m := fun h => h1 h.2
          simp [this]
        · simp [hs]
      · rename_i hs
        exact handleRequest_flags hresp (by simpa using hs) h1 h2 h3 h4 h5 hh
    have hn : ∀ st' : State, ∀ e : Bool, Same st st' → st'.id = st.id → m.call ≠ .exit → m.call ≠ .shutdown →
        (∀ x, m.call ≠ .initialize (.given (some x))) → Flags st m { st := st', err := e } :=
      fun st' e hs hid h1 h2 h3 => flags_same hs hid rfl (fun h => h2 h.2) (fun h => h1 h.2) (.inr h3)
    generalize hcall : m.call = call at *
    cases call with
    | didOpen p =>
      cases p with
      | bad => cases hh; exact hn _ _ Same.rfl rfl (by simp) (by simp) (by simp)
      | missing => cases hh
      | given a =>
        obtain ⟨u, t⟩ := a
        cases hh
        exact hn _ _ (put_same _ _ _) rfl (by simp) (by simp) (by simp)
    | didChange p =>
      cases p with
      | bad => cases hh; exact hn _ _ Same.rfl rfl (by simp) (by simp) (by simp)
      | missing => cases hh
      | given a =>
        obtain ⟨uri, chs⟩ := a
        simp only [Option.map_eq_some_iff, Prod.exists] at hh
        obtain ⟨st', e, ha, ho⟩ := hh
        subst ho
        rcases applyChanges_spec _ _ _ _ _ ha with ⟨rfl, hx⟩ | ⟨u, d, t, rfl, hd, hl, rfl⟩
        · exact hn _ _ Same.rfl rfl (by simp) (by simp) (by simp)
        · exact hn _ _ (put_same _ _ _) rfl (by simp) (by simp) (by simp)
    | initialized => cases hh; exact hn _ _ Same.rfl rfl (by simp) (by simp) (by simp)
    | exit =>
      cases hh
      have he : IsExit m := ⟨hresp, hcall⟩
      have hs : ¬ IsShutdown m := fun h => by have := h.2; rw [hcall] at this; cases this
      refine ⟨by simp [hs], by simp [he], ?_, ?_, .inl ⟨rfl, rfl⟩⟩
      · cases st.shutdown <;> simp [he]
      · have : cfgStep st.config m = st.config := by simp [cfgStep, hcall]
        rw [this]; simp
    | didSave ok => cases hh; exact hn _ _ Same.rfl rfl (by simp) (by simp) (by simp)
    | _ => exact hreq (by simp) (by simp) (by simp) (by simp) (by simp) hh

/-! ## Sessions -/

theorem opens_not_changes {m : Msg} {u v t t' : Bytes} (h : Opens m u t) (h' : Changes m v t') : False := by
  obtain ⟨_, h⟩ := h
  obtain ⟨_, chs, h', _⟩ := h'
  rw [h] at h'; cases h'

theorem closes_not_changes {m : Msg} {u v t : Bytes} (h : Closes m u) (h' : Changes m v t) : False := by
  obtain ⟨_, h⟩ := h
  obtain ⟨_, chs, h', _⟩ := h'
  rw [h] at h'; cases h'

theorem closes_not_opens {m : Msg} {u v t : Bytes} (h : Closes m u) (h' : Opens m v t) : False := by
  obtain ⟨_, h⟩ := h
  obtain ⟨_, h'⟩ := h'
  rw [h] at h'; cases h'

theorem opens_inj {m : Msg} {u v t t' : Bytes} (h : Opens m u t) (h' : Opens m v t') : u = v ∧ t = t' := by
  have := h.2.symm.trans h'.2
  cases this; exact ⟨rfl, rfl⟩

theorem changes_inj {m : Msg} {u v t t' : Bytes} (h : Changes m u t) (h' : Changes m v t') : u = v ∧ t = t' := by
  obtain ⟨_, chs, h1, h2⟩ := h
  obtain ⟨_, chs', h3, h4⟩ := h'
  rw [h1] at h3
  cases h3
  rw [h2] at h4
  cases h4
  exact ⟨rfl, rfl⟩

theorem closes_inj {m : Msg} {u v : Bytes} (h : Closes m u) (h' : Closes m v) : u = v := by
  have := h.2.symm.trans h'.2
  cases this; rfl

theorem holds_nil {u t : Bytes} : ¬ Holds [] u t := by
  intro h
  generalize hms : ([] : List Msg) = ms at h
  cases h <;> simp at hms

theorem holds_snoc {ms : List Msg} {m : Msg} {u t : Bytes} :
    Holds (ms ++ [m]) u t ↔ Opens m u t ∨ (Changes m u t ∧ ∃ t₀, Holds ms u t₀) ∨
      (¬ Touches m u ∧ Holds ms u t) := by
  constructor
  · intro h
    generalize hms : ms ++ [m] = ms' at h
    cases h with
    | opened pre post m' _ _ hm hpost =>
      cases hp : post.reverse with
      | nil =>
        have : post = [] := by simpa using hp
        subst this
        obtain ⟨rfl, rfl⟩ : ms = pre ∧ m = m' := by simpa using List.append_inj' hms rfl
        exact .inl hm
      | cons x xs =>
        have : post = xs.reverse ++ [x] := by rw [← List.reverse_reverse post, hp]; simp
        subst this
        have hx : ms ++ [m] = (pre ++ m' :: xs.reverse) ++ [x] := by rw [hms]; simp
        obtain ⟨rfl, rfl⟩ : ms = pre ++ m' :: xs.reverse ∧ m = x := by simpa using List.append_inj' hx rfl
        exact .inr (.inr ⟨hpost _ (by simp), .opened _ _ _ _ _ hm fun y hy => hpost y (by simp at hy ⊢; exact .inl hy)⟩)
    | changed pre post m' _ t₀ _ hpre hm hpost =>
      cases hp : post.reverse with
      | nil =>
        have : post = [] := by simpa using hp
        subst this
        obtain ⟨rfl, rfl⟩ : ms = pre ∧ m = m' := by simpa using List.append_inj' hms rfl
        exact .inr (.inl ⟨hm, t₀, hpre⟩)
      | cons x xs =>
        have : post = xs.reverse ++ [x] := by rw [← List.reverse_reverse post, hp]; simp
        subst this
        have hx : ms ++ [m] = (pre ++ m' :: xs.reverse) ++ [x] := by rw [hms]; simp
        obtain ⟨rfl, rfl⟩ : ms = pre ++ m' :: xs.reverse ∧ m = x := by simpa using List.append_inj' hx rfl
        exact .inr (.inr ⟨hpost _ (by simp), .changed _ _ _ _ _ _ hpre hm fun y hy => hpost y (by simp at hy ⊢; exact .inl hy)⟩)
  · rintro (h | ⟨h, t₀, h0⟩ | ⟨hn, h⟩)
    · exact .opened ms [] m u t h (by simp)
    · exact .changed ms [] m u t₀ t h0 h (by simp)
    · cases h with
      | opened pre post m' _ _ hm hpost =>
        have := Holds.opened pre (post ++ [m]) m' u t hm (by
          intro y hy
          rcases List.mem_append.1 hy with hy | hy
          · exact hpost y hy
          · simp at hy; subst hy; exact hn)
        simpa using this
      | changed pre post m' _ t₀ _ hpre hm hpost =>
        have := Holds.changed pre (post ++ [m]) m' u t₀ t hpre hm (by
          intro y hy
          rcases List.mem_append.1 hy with hy | hy
          · exact hpost y hy
          · simp at hy; subst hy; exact hn)
        simpa using this

theorem snoc_induct {α : Type} {P : List α → Prop} (h0 : P []) (hs : ∀ l x, P l → P (l ++ [x])) : ∀ l, P l := by
  intro l
  have : ∀ l : List α, P l.reverse := by
    intro l
    induction l with
    | nil => exact h0
    | cons x xs ih => rw [List.reverse_cons]; exact hs _ _ ih
  rw [← List.reverse_reverse l]; exact this _

/-- What is known of a session that has not been shut down. -/
structure Inv (h : Host) (ms : List (Choice × Msg)) : Prop where
  texts : ∀ u t, Holds (ms.map (·.2)) u t ↔ ∃ d, (run h ms).st.docs u = some d ∧ d.s = t
  cache : ∀ u d r, (run h ms).st.docs u = some d → d.res = some r →
    ∃ x ∈ ms, process ⟨h.addrOk, x.1.maps⟩ d.s = some r
  config : (run h ms).st.config = (ms.map (·.2)).foldl cfgStep {}

theorem shutdown_snoc {h : Host} {ms : List (Choice × Msg)} {x : Choice × Msg} (hr : Running h (ms ++ [x]))
    (hs : (run h (ms ++ [x])).st.shutdown = false) : (run h ms).st.shutdown = false ∧ ¬ IsShutdown x.2 := by
  obtain ⟨_, o, ho, hst, _⟩ := running_snoc hr
  have := (handle_flags ho).shutdown
  rw [hst] at hs
  rw [hs] at this
  simpa using this.symm

theorem docs_inv {h : Host} {ms : List (Choice × Msg)} {x : Choice × Msg} {o : Step}
    (ih : Inv h ms) (hsh : (run h ms).st.shutdown = false) (hd : DocsStep h x.1 (run h ms).st x.2 o.st) :
    (∀ u t, Holds ((ms ++ [x]).map (·.2)) u t ↔ ∃ d, o.st.docs u = some d ∧ d.s = t) ∧
    (∀ u d r, o.st.docs u = some d → d.res = some r →
      ∃ y ∈ ms ++ [x], process ⟨h.addrOk, y.1.maps⟩ d.s = some r) := by
  have hmem : ∀ (u : Bytes) (d : Doc) (r : ProcessResult), (run h ms).st.docs u = some d → d.res = some r →
      ∃ y ∈ ms ++ [x], process ⟨h.addrOk, y.1.maps⟩ d.s = some r := by
    intro u d r h1 h2
    obtain ⟨y, hy, hp⟩ := ih.cache u d r h1 h2
    exact ⟨y, List.mem_append_left _ hy, hp⟩
  rw [List.map_append, List.map_cons, List.map_nil]
  generalize hst : o.st = st' at *
  cases hd with
  | none _ hd hm =>
    rw [hd]
    refine ⟨fun u t => ?_, hmem⟩
    rw [holds_snoc, ← ih.texts]
    constructor
    · rintro (h1 | ⟨h1, t₀, h0⟩ | ⟨_, h1⟩)
      · rcases hm u with h2 | h2 | ⟨⟨t', h2⟩, h3⟩
        · exact absurd (.inr ⟨t, .inl h1⟩) h2
        · rw [hsh] at h2; cases h2
        · exact (opens_not_changes h1 h2).elim
      · rcases hm u with h2 | h2 | ⟨⟨t', h2⟩, h3⟩
        · exact absurd (.inr ⟨t, .inr h1⟩) h2
        · rw [hsh] at h2; cases h2
        · obtain ⟨d, hd, _⟩ := (ih.texts u t₀).1 h0
          rw [h3] at hd; cases hd
      · exact h1
    · intro h1
      rcases hm u with h2 | h2 | ⟨_, h3⟩
      · exact .inr (.inr ⟨h2, h1⟩)
      · rw [hsh] at h2; cases h2
      · obtain ⟨d, hd, _⟩ := (ih.texts u t).1 h1
        rw [h3] at hd; cases hd
  | opened v s hm =>
    refine ⟨fun u t => ?_, ?_⟩
    · rw [holds_snoc, put_docs]
      by_cases hu : u = v
      · subst hu
        rw [if_pos rfl]
        constructor
        · rintro (h1 | ⟨h1, _⟩ | ⟨h1, _⟩)
          · exact ⟨_, rfl, (opens_inj hm h1).2⟩
          · exact (opens_not_changes hm h1).elim
          · exact absurd (.inr ⟨s, .inl hm⟩) h1
        · rintro ⟨d, hd, rfl⟩
          cases hd
          exact .inl hm
      · rw [if_neg hu, ← ih.texts]
        constructor
        · rintro (h1 | ⟨h1, _⟩ | ⟨_, h1⟩)
          · exact absurd (opens_inj h1 hm).1 hu
          · exact (opens_not_changes hm h1).elim
          · exact h1
        · intro h1
          refine .inr (.inr ⟨?_, h1⟩)
          rintro (h2 | ⟨t', h2 | h2⟩)
          · exact closes_not_opens h2 hm
          · exact hu (opens_inj h2 hm).1
          · exact opens_not_changes hm h2
    · intro u d r h1 h2
      rw [put_docs] at h1
      split at h1
      · cases h1; cases h2
      · exact hmem u d r h1 h2
  | changed v s d₀ hd₀ hm =>
    refine ⟨fun u t => ?_, ?_⟩
    · rw [holds_snoc, put_docs]
      by_cases hu : u = v
      · subst hu
        rw [if_pos rfl]
        constructor
        · rintro (h1 | ⟨h1, _⟩ | ⟨h1, _⟩)
          · exact (opens_not_changes h1 hm).elim
          · exact ⟨_, rfl, (changes_inj hm h1).2⟩
          · exact absurd (.inr ⟨s, .inr hm⟩) h1
        · rintro ⟨d, hd, rfl⟩
          cases hd
          exact .inr (.inl ⟨hm, d₀.s, (ih.texts _ _).2 ⟨d₀, hd₀, rfl⟩⟩)
      · rw [if_neg hu, ← ih.texts]
        constructor
        · rintro (h1 | ⟨h1, _⟩ | ⟨_, h1⟩)
          · exact (opens_not_changes h1 hm).elim
          · exact absurd (changes_inj h1 hm).1 hu
          · exact h1
        · intro h1
          refine .inr (.inr ⟨?_, h1⟩)
          rintro (h2 | ⟨t', h2 | h2⟩)
          · exact closes_not_changes h2 hm
          · exact opens_not_changes h2 hm
          · exact hu (changes_inj h2 hm).1
    · intro u d r h1 h2
      rw [put_docs] at h1
      split at h1
      · cases h1; cases h2
      · exact hmem u d r h1 h2
  | closed v hm =>
    refine ⟨fun u t => ?_, ?_⟩
    · rw [holds_snoc, put_docs]
      by_cases hu : u = v
      · subst hu
        rw [if_pos rfl]
        constructor
        · rintro (h1 | ⟨h1, _⟩ | ⟨h1, _⟩)
          · exact (closes_not_opens hm h1).elim
          · exact (closes_not_changes hm h1).elim
          · exact absurd (.inl hm) h1
        · rintro ⟨d, hd, _⟩; cases hd
      · rw [if_neg hu, ← ih.texts]
        constructor
        · rintro (h1 | ⟨h1, _⟩ | ⟨_, h1⟩)
          · exact (closes_not_opens hm h1).elim
          · exact (closes_not_changes hm h1).elim
          · exact h1
        · intro h1
          refine .inr (.inr ⟨?_, h1⟩)
          rintro (h2 | ⟨t', h2 | h2⟩)
          · exact hu (closes_inj h2 hm)
          · exact closes_not_opens hm h2
          · exact closes_not_changes hm h2
    · intro u d r h1 h2
      rw [put_docs] at h1
      split at h1
      · cases h1
      · exact hmem u d r h1 h2
  | cached v d₀ r₀ _ hd₀ hr₀ hp hm hst =>
    rw [hst]
    refine ⟨fun u t => ?_, ?_⟩
    · rw [holds_snoc, put_docs]
      have hx : (Opens x.2 u t ∨ (Changes x.2 u t ∧ ∃ t₀, Holds (ms.map (·.2)) u t₀) ∨
          (¬ Touches x.2 u ∧ Holds (ms.map (·.2)) u t)) ↔ Holds (ms.map (·.2)) u t := by
        constructor
        · rintro (h1 | ⟨h1, _⟩ | ⟨_, h1⟩)
          · exact absurd (.inr ⟨t, .inl h1⟩) (hm u)
          · exact absurd (.inr ⟨t, .inr h1⟩) (hm u)
          · exact h1
        · exact fun h1 => .inr (.inr ⟨hm u, h1⟩)
      rw [hx, ih.texts]
      by_cases hu : u = v
      · subst hu
        rw [if_pos rfl, hd₀]
        constructor
        · rintro ⟨d, hd, rfl⟩; cases hd; exact ⟨_, rfl, rfl⟩
        · rintro ⟨d, hd, rfl⟩; cases hd; exact ⟨_, rfl, rfl⟩
      · rw [if_neg hu]
    · intro u d r h1 h2
      rw [put_docs] at h1
      split at h1
      · cases h1
        cases h2
        exact ⟨x, by simp, hp⟩
      · exact hmem u d r h1 h2

theorem session_inv (h : Host) : ∀ ms, Running h ms → (run h ms).st.shutdown = false → Inv h ms := by
  refine snoc_induct ?_ ?_
  · intro _ _
    refine ⟨fun u t => ?_, ?_, rfl⟩
    · simp only [List.map_nil]
      constructor
      · intro h; exact absurd h holds_nil
      · rintro ⟨d, hd, _⟩; cases hd
    · intro u d r hd; cases hd
  · intro ms x ih hr hs
    obtain ⟨hr', o, ho, hst, _⟩ := running_snoc hr
    have hs' := (shutdown_snoc hr hs).1
    have ih := ih hr' hs'
    obtain ⟨h1, h2⟩ := docs_inv ih hs' (handle_docs ho)
    refine ⟨?_, ?_, ?_⟩
    · rw [hst]; exact h1
    · rw [hst]; exact h2
    · rw [hst, (handle_flags ho).config, hs']
      rw [List.map_append, List.foldl_append, ih.config]
      rfl

theorem cfg_filter (ms : List Msg) (c : Config) : (ms.filter isInit).foldl cfgStep c = ms.foldl cfgStep c := by
  induction ms generalizing c with
  | nil => rfl
  | cons m ms ih =>
    by_cases hm : isInit m = true
    · rw [List.filter_cons_of_pos hm, List.foldl_cons, List.foldl_cons, ih]
    · rw [List.filter_cons_of_neg hm, List.foldl_cons, ih]
      congr 1
      unfold cfgStep
      unfold isInit at hm
      split
      · rfl
      · rename_i hr
        split
        · rename_i o ho; rw [ho] at hm; simp [hr] at hm
        · rfl

/-- A session of `initialize` requests. -/
theorem inits_run (h : Host) : ∀ ms : List (Choice × Msg), (∀ x ∈ ms, isInit x.2 = true) →
    Running h ms ∧ (run h ms).st.shutdown = false := by
  refine snoc_induct ?_ ?_
  · intro _; exact ⟨⟨rfl, rfl⟩, rfl⟩
  · intro ms x ih hx
    have ⟨h1, h2⟩ := ih fun y hy => hx y (List.mem_append_left _ hy)
    have hi := hx x (by simp)
    rcases x with ⟨ch, resp, id, call⟩
    cases resp with
    | true => simp [isInit] at hi
    | false =>
      cases call <;> simp [isInit] at hi
      rename_i p
      unfold Running
      rw [run_running h1]
      cases p <;> simp [handle, handleRequest, h2, h1.1, h1.2]

theorem reaction_running {h : Host} {ms : List (Choice × Msg)} (hr : Running h ms) (x : Choice × Msg) :
    reaction h ms x = match handle h x.1 (run h ms).st x.2 with
      | none => ([], true)
      | some o => (o.sent.map forgetId, false) := by
  unfold reaction
  rw [run_running hr]
  split
  · simp
  · simp [hr.1]

theorem answer_maps (h : Host) (ch : Choice) (mp : MapOrder) (cfg : Config) (u s : Bytes) (r : ProcessResult)
    (q : Query) : answer h { ch with maps := mp } cfg u s r q = answer h ch cfg u s r q := by
  cases q <;> rfl

/-- The reaction to a request about a document depends on the text, the analysis and the
configuration. -/
theorem asks_congr {h : Host} {ch : Choice} {mp : MapOrder} {st₁ st₂ : State} {m : Msg} {u : Bytes} {d₁ d₂ : Doc}
    (hm : Asks m u) (hc : st₁.config = st₂.config) (hs₁ : st₁.shutdown = false) (hs₂ : st₂.shutdown = false)
    (hd₁ : st₁.docs u = some d₁) (hd₂ : st₂.docs u = some d₂) (ht : d₁.s = d₂.s)
    (hr : (results h ch st₁ u d₁).map (·.2) = (results h { ch with maps := mp } st₂ u d₂).map (·.2)) :
    (handle h ch st₁ m).map (fun o => o.sent.map forgetId) =
      (handle h { ch with maps := mp } st₂ m).map (fun o => o.sent.map forgetId) := by
  have hcase : (results h ch st₁ u d₁ = none ∧ results h { ch with maps := mp } st₂ u d₂ = none) ∨
      ∃ st₁' st₂' r, results h ch st₁ u d₁ = some (st₁', r) ∧ results h { ch with maps := mp } st₂ u d₂ = some (st₂', r) := by
    cases h1 : results h ch st₁ u d₁ with
    | none =>
      rw [h1] at hr
      cases h2 : results h { ch with maps := mp } st₂ u d₂ with
      | none => exact .inl ⟨rfl, rfl⟩
      | some b => rw [h2] at hr; cases hr
    | some a =>
      rw [h1] at hr
      cases h2 : results h { ch with maps := mp } st₂ u d₂ with
      | none => rw [h2] at hr; cases hr
      | some b =>
        rw [h2] at hr
        obtain ⟨s1, r1⟩ := a
        obtain ⟨s2, r2⟩ := b
        simp only [Option.map_some, Option.some.injEq] at hr
        subst hr
        exact .inr ⟨s1, s2, _, rfl, rfl⟩
  cases hm with
  | query id u q =>
    simp only [handle, handleRequest, hs₁, hs₂, hd₁, hd₂, Bool.false_eq_true, if_false]
    rcases hcase with ⟨h1, h2⟩ | ⟨s1, s2, r, h1, h2⟩
    · simp only [h1, h2]
    · have e1 := (results_same h1).1.config
      have e2 := (results_same h2).1.config
      simp only [h1, h2]
      rw [ht, e1, e2, hc, answer_maps h ch mp st₂.config u d₂.s r q]
      cases answer h ch st₂.config u d₂.s r q <;> rfl
  | diagnostic id u =>
    simp only [handle, handleRequest, hs₁, hs₂, hd₁, hd₂, Bool.false_eq_true, if_false]
    rcases hcase with ⟨h1, h2⟩ | ⟨s1, s2, r, h1, h2⟩
    · simp only [h1, h2]
    · simp only [h1, h2]; rfl
  | valueReplace id u r v =>
    simp only [handle, handleRequest, execute, hs₁, hs₂, hd₁, hd₂, Bool.false_eq_true, if_false]; rfl
  | lineRemove id u l =>
    simp only [handle, handleRequest, execute, hs₁, hs₂, hd₁, hd₂, Bool.false_eq_true, if_false]; rfl
  | versionUpdate id u v =>
    simp only [handle, handleRequest, execute, hs₁, hs₂, hd₁, hd₂, Bool.false_eq_true, if_false]
    rcases hcase with ⟨h1, h2⟩ | ⟨s1, s2, r, h1, h2⟩
    · simp only [h1, h2]
    · simp only [h1, h2]; rfl
  | labelRemove id u n =>
    simp only [handle, handleRequest, execute, hs₁, hs₂, hd₁, hd₂, Bool.false_eq_true, if_false]
    rcases hcase with ⟨h1, h2⟩ | ⟨s1, s2, r, h1, h2⟩
    · simp only [h1, h2]
    · simp only [h1, h2]; rfl
  | labelCreate id u n =>
    simp only [handle, handleRequest, execute, hs₁, hs₂, hd₁, hd₂, Bool.false_eq_true, if_false]
    rcases hcase with ⟨h1, h2⟩ | ⟨s1, s2, r, h1, h2⟩
    · simp only [h1, h2]
    · simp only [h1, h2]; rfl

theorem shutdown_iff (h : Host) : ∀ ms, Running h ms →
    ((run h ms).st.shutdown = true ↔ ∃ x ∈ ms, IsShutdown x.2) := by
  refine snoc_induct ?_ ?_
  · intro _; simp [run]
  · intro ms x ih hr
    obtain ⟨hr', o, ho, hst, _⟩ := running_snoc hr
    rw [hst, (handle_flags ho).shutdown]
    simp only [Bool.or_eq_true, ih hr', decide_eq_true_eq, List.mem_append, List.mem_singleton]
    constructor
    · rintro (⟨y, hy, h1⟩ | h1)
      · exact ⟨y, .inl hy, h1⟩
      · exact ⟨x, .inr rfl, h1⟩
    · rintro ⟨y, hy | rfl, h1⟩
      · exact .inl ⟨y, hy, h1⟩
      · exact .inr h1

theorem outcome_congr {a b : Option Step} :
    a.map (fun o => o.sent.map forgetId) = b.map (fun o => o.sent.map forgetId) →
    (match a with
      | none => ([], true)
      | some o => (o.sent.map forgetId, false)) =
    (match b with
      | none => (([] : List Sent), true)
      | some o => (o.sent.map forgetId, false)) := by
  intro h
  cases a with
  | none => cases b with
    | none => rfl
    | some y => cases h
  | some x => cases b with
    | none => cases h
    | some y =>
      simp only [Option.map_some, Option.some.injEq] at h
      simp only [h]

end Teal.Lsp
