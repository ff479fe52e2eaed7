import Verif.Spec.DapWire
import Verif.Model.DapWire
import Verif.Lemmas.Wire3
import Verif.Lemmas.WireOut

/-!
# Lemmas: the messages of the debug adapter protocol
-/

namespace Teal.DapSpec

open Teal Teal.Spec Teal.JsonSpec Teal.WireSpec Teal.Dap Teal.Wire

/-! ## Reading -/

theorem header_table : Table DapWire.headerFields :=
  .of [b!"seq", b!"type"] rfl (by decide) (by decide) (by unfold DapWire.headerFields; fields_commute)

theorem init_table : Table DapWire.initFields :=
  .of [b!"clientID", b!"clientName", b!"adapterID", b!"linesStartAt1", b!"columnsStartAt1", b!"pathFormat"] rfl (by decide) (by decide)
    (by unfold DapWire.initFields; fields_commute)

theorem trace_table : Table DapWire.traceFields :=
  .of [b!"threadId", b!"startFrame", b!"levels"] rfl (by decide) (by decide) (by unfold DapWire.traceFields; fields_commute)

theorem vars_table : Table DapWire.varsFields :=
  .of [b!"variablesReference", b!"start", b!"count"] rfl (by decide) (by decide) (by unfold DapWire.varsFields; fields_commute)

theorem next_table : Table DapWire.nextFields :=
  .of [b!"threadId", b!"singleThread", b!"granularity"] rfl (by decide) (by decide) (by unfold DapWire.nextFields; fields_commute)

theorem source_table : Table DapWire.sourceFields :=
  .of [b!"name", b!"path"] rfl (by decide) (by decide) (by unfold DapWire.sourceFields; fields_commute)

theorem breakpoints_table : Table DapWire.breakpointsFields :=
  .of [b!"source", b!"breakpoints"] rfl (by decide) (by decide) (by unfold DapWire.breakpointsFields; fields_commute)

/-- A field of a structure, filled from an optional member. -/
theorem perhaps_fill {α β : Type} {zero : β} {d : Dec β} {P : β → Json → Prop} (hd : ∀ b v, P b v → v ≠ .null ∧ ∀ old, d old v = some b)
    {ms : List (Bytes × Json)} {k : Bytes} {b : Option β} (hk : Ascii k) (h : Perhaps ms k P b) (o : α)
    (get : α → Option β) (set : α → Option β → α) (hs : set o none = o) :
    Once ms k ∧ fill ms o (k, fun d' j => (ptr zero d (get d') j).map (set d')) = some (set o b) := by
  unfold fill
  cases b with
  | none =>
    obtain ⟨h0, h1⟩ := may_pick h hk rfl
    refine ⟨h0, ?_⟩
    rcases h1 with h1 | ⟨v, h1, rfl | h2⟩
    · rw [h1]; simp [hs]
    · rw [h1]; simp [ptr_null]
    · exact h2.elim
  | some b =>
    obtain ⟨v, h1, h0, h2⟩ := has_pick h hk rfl
    refine ⟨h0, ?_⟩
    rw [h1]
    obtain ⟨h3, h4⟩ := hd b v h2
    simp only [ptr_reads (zero := zero) h3 h4, Option.map_some]

/-- A string of a structure, filled from an optional member. -/
theorem may_fill {α : Type} {ms : List (Bytes × Json)} {k : Bytes} (hk : Ascii k) (h : May ms k Str) (o : α)
    (get : α → Bytes) (set : α → Bytes → α) (hs : set o (get o) = o) :
    Once ms k ∧ ∃ s, fill ms o (k, fun d' j => (string (get d') j).map (set d')) = some (set o s) := by
  unfold fill
  obtain ⟨h0, h1⟩ := may_pick h hk rfl
  refine ⟨h0, ?_⟩
  rcases h1 with h1 | ⟨v, h1, rfl | ⟨s, rfl⟩⟩
  · exact ⟨get o, by rw [h1]; simp [hs]⟩
  · exact ⟨get o, by rw [h1]; simp [string_null]⟩
  · exact ⟨s, by rw [h1]; simp [string]⟩

theorem text_fill {α : Type} {ms : List (Bytes × Json)} {k s : Bytes} (hk : Ascii k) (h : Text ms k s) (o : α)
    (get : α → Bytes) (set : α → Bytes → α) (h0 : get o = []) (hs : set o [] = o) :
    Once ms k ∧ fill ms o (k, fun d' j => (string (get d') j).map (set d')) = some (set o s) := by
  unfold fill
  rcases h with ⟨rfl, h⟩ | h
  · obtain ⟨h1, h2⟩ := may_pick h hk rfl
    refine ⟨h1, ?_⟩
    rcases h2 with h2 | ⟨v, h2, rfl | h3⟩
    · rw [h2]; simp [hs]
    · rw [h2]; simp [string_null, h0]
    · exact h3.elim
  · obtain ⟨v, h1, h2, rfl⟩ := has_pick h hk rfl
    exact ⟨h2, by rw [h1]; simp [string]⟩

theorem int_strict {i : Int} {v : Json} (h : IsInt i v) : v ≠ .null ∧ ∀ old, int old v = some i :=
  ⟨by obtain ⟨s, rfl, -⟩ := h; exact fun h => (by cases h), int_reads h⟩

theorem bool_strict {b : Bool} {v : Json} (h : Yes b v) : v ≠ .null ∧ ∀ old, Wire.bool old v = some b := by
  cases h; exact ⟨fun h => (by cases h), fun _ => rfl⟩

theorem init_reads {l c : Option Bool} {j : Json} (h : IsInit l c j) : ∃ d, DapWire.init {} j = some d ∧ d.lines = l ∧ d.columns = c := by
  obtain ⟨ms, rfl, h1, h2, h3, h4, h5, h6⟩ := h
  obtain ⟨v3, e3, o3, s3, rfl⟩ := has_pick h3 (f := b!"adapterID") (by decide) rfl
  obtain ⟨o1, s1, f1⟩ := may_fill (by decide) h1 ({} : DapWire.Init) (·.clientID) (fun d v => { d with clientID := v }) rfl
  obtain ⟨o2, s2, f2⟩ := may_fill (by decide) h2 ({ clientID := s1 } : DapWire.Init) (·.clientName) (fun d v => { d with clientName := v }) rfl
  obtain ⟨o4, f4⟩ := perhaps_fill (zero := false) (d := Wire.bool) (fun _ _ => bool_strict) (by decide) h4
    ({ clientID := s1, clientName := s2, adapterID := s3 } : DapWire.Init) (·.lines) (fun d v => { d with lines := v }) rfl
  obtain ⟨o5, f5⟩ := perhaps_fill (zero := false) (d := Wire.bool) (fun _ _ => bool_strict) (by decide) h5
    ({ clientID := s1, clientName := s2, adapterID := s3, lines := l } : DapWire.Init) (·.columns) (fun d v => { d with columns := v }) rfl
  obtain ⟨o6, s6, f6⟩ := may_fill (by decide) h6 ({ clientID := s1, clientName := s2, adapterID := s3, lines := l, columns := c } : DapWire.Init)
    (·.pathFormat) (fun d v => { d with pathFormat := v }) rfl
  refine ⟨{ clientID := s1, clientName := s2, adapterID := s3, lines := l, columns := c, pathFormat := s6 }, ?_, rfl, rfl⟩
  · show members _ _ _ = _
    rw [members_eq init_table ms _ (by unfold DapWire.initFields; all_once; exact ⟨o1, o2, o3, o4, o5, o6⟩)]
    unfold DapWire.initFields
    rw [List.foldlM_cons, f1]
    show List.foldlM _ _ _ = _
    rw [List.foldlM_cons, f2]
    show List.foldlM _ _ _ = _
    rw [List.foldlM_cons]
    have f3 : fill ms ({ clientID := s1, clientName := s2 } : DapWire.Init)
        (b!"adapterID", fun d j => (string d.adapterID j).map fun v => { d with adapterID := v }) =
        some { clientID := s1, clientName := s2, adapterID := s3 } := by simp only [fill, e3]; rfl
    rw [f3]
    show List.foldlM _ _ _ = _
    rw [List.foldlM_cons, f4]
    show List.foldlM _ _ _ = _
    rw [List.foldlM_cons, f5]
    show List.foldlM _ _ _ = _
    rw [List.foldlM_cons, f6]
    rfl

theorem source_reads {s : Source} {j : Json} (h : IsSource s j) : DapWire.source ⟨[], []⟩ j = some s := by
  obtain ⟨ms, rfl, h1, h2⟩ := h
  obtain ⟨o1, f1⟩ := text_fill (by decide) h1 (⟨[], []⟩ : Source) (·.name) (fun d v => { d with name := v }) rfl rfl
  obtain ⟨o2, f2⟩ := text_fill (by decide) h2 (⟨s.name, []⟩ : Source) (·.path) (fun d v => { d with path := v }) rfl rfl
  show members _ _ _ = _
  rw [members_eq source_table ms _ (by unfold DapWire.sourceFields; all_once; exact ⟨o1, o2⟩)]
  unfold DapWire.sourceFields
  rw [List.foldlM_cons, f1]
  show List.foldlM _ _ _ = _
  rw [List.foldlM_cons, f2]
  rfl

theorem lines_read : ∀ {ls : List Int} {j : Json}, IsArr (ls.map IsLine) j → slice 0 DapWire.line [] j = some ls := by
  intro ls
  induction ls with
  | nil => intro j h; cases h; rfl
  | cons t ts ih =>
    intro j h
    cases h with
    | cons h1 h2 =>
      have := ih h2
      show elems _ _ _ _ = _
      have e : elems 0 DapWire.line [] _ = some ts := this
      obtain ⟨ms, rfl, h1⟩ := h1
      have e1 : DapWire.line 0 (.obj ms) = some t := single_reads (by decide) h1 fun v hv => int_reads hv _
      simp only [elems, List.headD_nil, List.tail_nil, e, e1]

theorem breakpoints_read {s : Source} {ls : List Int} {j : Json} (h : IsBreakpoints s ls j) :
    DapWire.breakpoints (⟨[], []⟩, []) j = some (s, ls) := by
  obtain ⟨ms, rfl, h1, h2⟩ := h
  obtain ⟨v1, e1, o1, p1⟩ := has_pick h1 (f := b!"source") (by decide) rfl
  have key : Once ms b!"breakpoints" ∧ fill ms (s, ([] : List Int)) (b!"breakpoints", fun d j => (slice 0 DapWire.line d.2 j).map fun v => (d.1, v)) =
      some (s, ls) := by
    unfold fill
    rcases h2 with ⟨rfl, h2⟩ | h2
    · obtain ⟨o2, h2⟩ := may_pick h2 (f := b!"breakpoints") (by decide) rfl
      refine ⟨o2, ?_⟩
      rcases h2 with h2 | ⟨v, h2, rfl | h3⟩
      · rw [h2]
      · rw [h2]; rfl
      · exact h3.elim
    · obtain ⟨v2, e2, o2, p2⟩ := has_pick h2 (f := b!"breakpoints") (by decide) rfl
      refine ⟨o2, ?_⟩
      rw [e2]
      simp only [lines_read p2, Option.map_some]
  show members _ _ _ = _
  rw [members_eq breakpoints_table ms _ (by unfold DapWire.breakpointsFields; all_once; exact ⟨o1, key.1⟩)]
  unfold DapWire.breakpointsFields
  rw [List.foldlM_cons]
  have : fill ms ((⟨[], []⟩, []) : Source × List Int) (b!"source", fun d j => (DapWire.source d.1 j).map fun v => (v, d.2)) = some (s, []) := by
    unfold fill; rw [e1]; simp only [source_reads p1, Option.map_some]
  rw [this]
  show List.foldlM _ _ _ = _
  rw [List.foldlM_cons, key.2]
  rfl

theorem vars_read {a : VarArgs} {j : Json} (h : IsObj (fun as => Has as b!"variablesReference" (IsInt a.ref) ∧
    Perhaps as b!"start" IsInt a.start ∧ Perhaps as b!"count" IsInt a.count) j) : DapWire.vars ⟨0, none, none⟩ j = some a := by
  obtain ⟨ms, rfl, h1, h2, h3⟩ := h
  obtain ⟨v1, e1, o1, p1⟩ := has_pick h1 (f := b!"variablesReference") (by decide) rfl
  obtain ⟨o2, f2⟩ := perhaps_fill (zero := 0) (d := int) (fun _ _ => int_strict) (by decide) h2 (⟨a.ref, none, none⟩ : VarArgs)
    (·.start) (fun d v => { d with start := v }) rfl
  obtain ⟨o3, f3⟩ := perhaps_fill (zero := 0) (d := int) (fun _ _ => int_strict) (by decide) h3 (⟨a.ref, a.start, none⟩ : VarArgs)
    (·.count) (fun d v => { d with count := v }) rfl
  show members _ _ _ = _
  rw [members_eq vars_table ms _ (by unfold DapWire.varsFields; all_once; exact ⟨o1, o2, o3⟩)]
  unfold DapWire.varsFields
  rw [List.foldlM_cons]
  have : fill ms (⟨0, none, none⟩ : VarArgs) (b!"variablesReference", fun d j => (int d.ref j).map fun v => { d with ref := v }) =
      some ⟨a.ref, none, none⟩ := by unfold fill; rw [e1]; simp only [int_reads p1, Option.map_some]
  rw [this]
  show List.foldlM _ _ _ = _
  rw [List.foldlM_cons, f2]
  show List.foldlM _ _ _ = _
  rw [List.foldlM_cons, f3]
  rfl

theorem some_fill {α β : Type} {zero : β} {d : Dec β} {P : Json → Prop} (hd : ∀ v, P v → v ≠ .null ∧ ∃ b, ∀ old, d old v = some b)
    {ms : List (Bytes × Json)} {k : Bytes} (hk : Ascii k) (h : May ms k P) (o : α)
    (get : α → Option β) (set : α → Option β → α) (hs : set o none = o) :
    Once ms k ∧ ∃ b, fill ms o (k, fun d' j => (ptr zero d (get d') j).map (set d')) = some (set o b) := by
  unfold fill
  obtain ⟨h0, h1⟩ := may_pick h hk rfl
  refine ⟨h0, ?_⟩
  rcases h1 with h1 | ⟨v, h1, rfl | h2⟩
  · exact ⟨none, by rw [h1]; simp [hs]⟩
  · exact ⟨none, by rw [h1]; simp [ptr_null]⟩
  · obtain ⟨h3, b, h4⟩ := hd v h2
    exact ⟨some b, by rw [h1]; simp only [ptr_reads (zero := zero) h3 h4, Option.map_some]⟩

theorem next_reads {t : Int} {j : Json} (h : IsObj (fun as => Has as b!"threadId" (IsInt t) ∧
    May as b!"singleThread" (fun j => ∃ b, Yes b j) ∧ May as b!"granularity" Str) j) : ∃ d, DapWire.next {} j = some d ∧ d.threadId = t := by
  obtain ⟨ms, rfl, h1, h2, h3⟩ := h
  obtain ⟨v1, e1, o1, p1⟩ := has_pick h1 (f := b!"threadId") (by decide) rfl
  obtain ⟨o2, b, f2⟩ := some_fill (zero := false) (d := Wire.bool) (fun v hv => by
    obtain ⟨b, hb⟩ := hv
    exact ⟨(bool_strict hb).1, b, (bool_strict hb).2⟩) (by decide) h2 ({ threadId := t } : DapWire.Next)
    (·.singleThread) (fun d v => { d with singleThread := v }) rfl
  obtain ⟨o3, s, f3⟩ := may_fill (by decide) h3 ({ threadId := t, singleThread := b } : DapWire.Next)
    (·.granularity) (fun d v => { d with granularity := v }) rfl
  refine ⟨{ threadId := t, singleThread := b, granularity := s }, ?_, rfl⟩
  show members _ _ _ = _
  rw [members_eq next_table ms _ (by unfold DapWire.nextFields; all_once; exact ⟨o1, o2, o3⟩)]
  unfold DapWire.nextFields
  rw [List.foldlM_cons]
  have : fill ms ({} : DapWire.Next) (b!"threadId", fun d j => (int d.threadId j).map fun v => { d with threadId := v }) =
      some { threadId := t } := by unfold fill; rw [e1]; simp only [int_reads p1, Option.map_some]
  rw [this]
  show List.foldlM _ _ _ = _
  rw [List.foldlM_cons, f2]
  show List.foldlM _ _ _ = _
  rw [List.foldlM_cons, f3]
  rfl

theorem trace_reads {t : Int} {j : Json} (h : IsObj (fun as => Has as b!"threadId" (IsInt t) ∧
    May as b!"startFrame" Int' ∧ May as b!"levels" Int') j) : ∃ d, DapWire.trace {} j = some d ∧ d.threadId = t := by
  have hi : ∀ v, Int' v → v ≠ .null ∧ ∃ b, ∀ old, int old v = some b := by
    rintro v ⟨i, hi⟩
    exact ⟨(int_strict hi).1, i, (int_strict hi).2⟩
  obtain ⟨ms, rfl, h1, h2, h3⟩ := h
  obtain ⟨v1, e1, o1, p1⟩ := has_pick h1 (f := b!"threadId") (by decide) rfl
  obtain ⟨o2, b, f2⟩ := some_fill (zero := 0) (d := int) hi (by decide) h2 ({ threadId := t } : DapWire.Trace)
    (·.startFrame) (fun d v => { d with startFrame := v }) rfl
  obtain ⟨o3, s, f3⟩ := some_fill (zero := 0) (d := int) hi (by decide) h3 ({ threadId := t, startFrame := b } : DapWire.Trace)
    (·.levels) (fun d v => { d with levels := v }) rfl
  refine ⟨{ threadId := t, startFrame := b, levels := s }, ?_, rfl⟩
  show members _ _ _ = _
  rw [members_eq trace_table ms _ (by unfold DapWire.traceFields; all_once; exact ⟨o1, o2, o3⟩)]
  unfold DapWire.traceFields
  rw [List.foldlM_cons]
  have : fill ms ({} : DapWire.Trace) (b!"threadId", fun d j => (int d.threadId j).map fun v => { d with threadId := v }) =
      some { threadId := t } := by unfold fill; rw [e1]; simp only [int_reads p1, Option.map_some]
  rw [this]
  show List.foldlM _ _ _ = _
  rw [List.foldlM_cons, f2]
  show List.foldlM _ _ _ = _
  rw [List.foldlM_cons, f3]
  rfl

theorem args_read {α : Type} {zero : α} {d : Dec α} {P : Json → Prop} {ms : List (Bytes × Json)} (h : Has ms b!"arguments" (IsObj fun as => P (.obj as)))
    {Q : α → Prop} (hd : ∀ v, P v → ∃ a, d zero v = some a ∧ Q a) : ∃ a, DapWire.arguments zero d (.obj ms) = some (some a) ∧ Q a := by
  obtain ⟨v, ⟨as, rfl, p⟩, hv⟩ := h.exact
  obtain ⟨a, ha, hq⟩ := hd _ p
  exact ⟨a, single_reads (by decide) hv fun w hw => by rw [hw]; exact ptr_zero (by rintro ⟨⟩) ha, hq⟩

theorem args_exact {α : Type} {zero a : α} {d : Dec α} {P : Json → Prop} {ms : List (Bytes × Json)} (h : Has ms b!"arguments" P)
    (hp : ∀ v, P v → v ≠ .null) (hd : ∀ v, P v → d zero v = some a) : DapWire.arguments zero d (.obj ms) = some (some a) :=
  single_reads (by decide) h fun w hw => ptr_zero (hp w hw) (hd w hw)

theorem args_some {α : Type} {zero : α} {d : Dec α} {P : Json → Prop} {ms : List (Bytes × Json)} (h : Has ms b!"arguments" P)
    {Q : α → Prop} (hp : ∀ v, P v → v ≠ .null) (hd : ∀ v, P v → ∃ a, d zero v = some a ∧ Q a) :
    ∃ a, DapWire.arguments zero d (.obj ms) = some (some a) ∧ Q a := by
  obtain ⟨v, p, hv⟩ := h.exact
  obtain ⟨a, ha, hq⟩ := hd _ p
  exact ⟨a, single_reads (by decide) hv fun w hw => by rw [hw]; exact ptr_zero (hp v p) ha, hq⟩

theorem call_reads {file : Bytes → Option Bytes} {c : Command} {name : Bytes} {ms : List (Bytes × Json)} (h : Calls file c name ms) :
    DapWire.command file name (.obj ms) = c := by
  have single : ∀ {k : Bytes} {i : Int} {v : Json}, Ascii k → IsObj (fun as => Has as k (IsInt i)) v → struct [(k, int)] 0 v = some i := by
    rintro k i _ hk ⟨as, rfl, h⟩
    exact single_reads hk h fun w hw => int_reads hw _
  cases h with
  | «initialize» h =>
    obtain ⟨a, e, h1, h2⟩ := args_some h (fun _ => isObj_ne_null) (Q := fun d : DapWire.Init => d.lines = _ ∧ d.columns = _) (fun v hv => init_reads hv)
    simp [DapWire.command, DapWire.withArgs, e, h1, h2]
  | @launch _ program h =>
    have e := args_exact h (zero := []) (a := program) (d := DapWire.launch) (fun _ => isObj_ne_null) (by
      rintro _ ⟨as, rfl, h⟩
      exact single_reads (by decide) h fun w hw => string_reads hw _)
    simp [DapWire.command, DapWire.withArgs, e]
  | plain h =>
    simp only [List.mem_cons, List.not_mem_nil, or_false] at h
    rcases h with rfl | rfl | rfl | rfl | rfl | rfl <;> simp [DapWire.command, plainCommands]
  | setBreakpoints h =>
    have e := args_exact h (fun _ => isObj_ne_null) (fun v hv => breakpoints_read hv)
    simp [DapWire.command, DapWire.withArgs, plainCommands, e]
  | threads => simp [DapWire.command, plainCommands]
  | pause => simp [DapWire.command, plainCommands]
  | continue_ h =>
    have e := args_exact h (fun _ => isObj_ne_null) (fun v hv => single (by decide) hv)
    have e : DapWire.arguments 0 DapWire.threadId (.obj ms) = _ := e
    simp [DapWire.command, DapWire.withArgs, plainCommands, e]
  | next h =>
    obtain ⟨a, e, h1⟩ := args_some h (fun _ => isObj_ne_null) (Q := fun d : DapWire.Next => d.threadId = _) (fun v hv => next_reads hv)
    simp [DapWire.command, DapWire.withArgs, plainCommands, e, h1]
  | variables h =>
    have e := args_exact h (fun _ => isObj_ne_null) (fun v hv => vars_read hv)
    simp [DapWire.command, DapWire.withArgs, plainCommands, e]
  | scopes h =>
    have e := args_exact h (fun _ => isObj_ne_null) (fun v hv => single (by decide) hv)
    have e : DapWire.arguments 0 DapWire.frameId (.obj ms) = _ := e
    simp [DapWire.command, DapWire.withArgs, plainCommands, e]
  | stackTrace h =>
    obtain ⟨a, e, h1⟩ := args_some h (fun _ => isObj_ne_null) (Q := fun d : DapWire.Trace => d.threadId = _) (fun v hv => trace_reads hv)
    simp [DapWire.command, DapWire.withArgs, plainCommands, e, h1]
  | unknown h =>
    simp only [commands, List.mem_cons, List.not_mem_nil, or_false, not_or] at h
    simp [DapWire.command, plainCommands, h]

theorem message_reads {file : Bytes → Option Bytes} {n : Nat} {s : Bytes} {j : Json} {seq : Int} {name : Bytes} {c : Command}
    (h : Spells n s j) (hd : n ≤ 10000) (ha : Asks file j seq name c) : DapWire.message file s = (name, ⟨seq, c⟩) := by
  obtain ⟨ms, rfl, h1, h2, h3, h4⟩ := ha
  unfold DapWire.message
  rw [parse_complete h hd]
  obtain ⟨v1, e1, o1, p1⟩ := has_pick h1 (f := b!"seq") (by decide) rfl
  obtain ⟨v2, e2, o2, p2⟩ := has_pick h2 (f := b!"type") (by decide) rfl
  have e : DapWire.header {} (.obj ms) = some { seq := seq, type := b!"request" } := by
    show members _ _ _ = _
    rw [members_eq header_table ms _ (by unfold DapWire.headerFields; all_once; exact ⟨o1, o2⟩)]
    simp only [DapWire.headerFields, List.foldlM_cons, List.foldlM_nil, fill, e1, e2, int_reads p1, string_reads p2]
    rfl
  have en : DapWire.commandName (.obj ms) = some name := single_reads (by decide) h3 fun v hv => string_reads hv _
  dsimp only
  rw [e]
  simp [en, call_reads h4]

/-- A message that is no request has no effect. -/
theorem message_other {file : Bytes → Option Bytes} {n : Nat} {s : Bytes} {j : Json} (h : Spells n s j) (hd : n ≤ 10000) (ha : NoRequest j) :
    (DapWire.message file s).2.cmd = .other := by
  obtain ⟨ms, rfl, ⟨pre, v, post, e, l1, l2, seq, hseq⟩, type, h2, hne⟩ := ha
  have h1 : Has ms b!"seq" (IsInt seq) := ⟨pre, v, post, e, l1, l2, hseq⟩
  unfold DapWire.message
  rw [parse_complete h hd]
  obtain ⟨v1, e1, o1, p1⟩ := has_pick h1 (f := b!"seq") (by decide) rfl
  obtain ⟨v2, e2, o2, p2⟩ := has_pick h2 (f := b!"type") (by decide) rfl
  have e : DapWire.header {} (.obj ms) = some { seq := seq, type := type } := by
    show members _ _ _ = _
    rw [members_eq header_table ms _ (by unfold DapWire.headerFields; all_once; exact ⟨o1, o2⟩)]
    simp only [DapWire.headerFields, List.foldlM_cons, List.foldlM_nil, fill, e1, e2, int_reads p1, string_reads p2]
    rfl
  dsimp only
  rw [e]
  simp [hne]

end Teal.DapSpec
