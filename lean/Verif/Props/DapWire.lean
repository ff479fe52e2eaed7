import Verif.Lemmas.DapOut
import Verif.Props.Dap
import Verif.Props.Frame
import Verif.Props.Json

/-!
# C106, C107: the messages of the debug adapter as JSON texts
-/

namespace Teal.Props

open Teal Teal.Spec Teal.JsonSpec Teal.WireSpec Teal.Frame Teal.Frame.Spec Teal.Dap Teal.DapSpec

/-- C106: a JSON text of a request of the protocol is understood, whatever the order of the members, the white space and the
escapes are and whatever other members there are. -/
theorem C106_partial {file : Bytes → Option Bytes} {n : Nat} {s : Bytes} {j : Json} {seq : Int} {name : Bytes} {c : Command}
    (h : Spells n s j) (hd : n ≤ 10000) (ha : DapSpec.Asks file j seq name c) : DapWire.message file s = (name, ⟨seq, c⟩) :=
  DapSpec.message_reads h hd ha

/-- A request for breakpoints with the members in an unusual order, unknown members and an unusual spelling. -/
def breakpointsText : Bytes :=
  b!"{\"arguments\": {\"breakpoints\":[{\"column\":1,\"line\":4},{\"line\":12}],\"sourceModified\":false, \"source\":{\"path\":\"\\/a.teal\", \"name\":null}},\n\"type\":\"request\", \"command\":\"set\\u0042reakpoints\", \"seq\": 7}"

/-- The value it stands for. -/
def breakpointsValue : Json :=
  .obj [(b!"arguments", .obj [(b!"breakpoints", .arr [.obj [(b!"column", .num b!"1"), (b!"line", .num b!"4")], .obj [(b!"line", .num b!"12")]]),
      (b!"sourceModified", .bool false), (b!"source", .obj [(b!"path", .str b!"/a.teal"), (b!"name", .null)])]),
    (b!"type", .str b!"request"), (b!"command", .str b!"setBreakpoints"), (b!"seq", .num b!"7")]

/-- It is a request of the protocol. -/
theorem breakpoints_asks : DapSpec.Asks (fun _ => none) breakpointsValue 7 b!"setBreakpoints" (.setBreakpoints (some (⟨[], b!"/a.teal"⟩, [4, 12]))) := by
  have l : ∀ {ms : List (Bytes × Json)} {k : Bytes}, Ascii k → (ms.all fun m => !Wire.equalFold k m.1) = true → Lacks ms k := lacks_of
  have hd : ∀ {n : Nat} {s : Bytes}, formatUint n = s → DecimalOf n s := fun h => h ▸ formatUint_decimal _
  refine ⟨_, rfl, ?_, ?_, ?_, .setBreakpoints ?_⟩
  · exact ⟨[_, _, _], _, [], rfl, l (by decide) (by decide), l (by decide) (by decide), _, rfl, .inl ⟨7, rfl, hd (by decide +kernel)⟩, by decide, by decide⟩
  · exact ⟨[_], _, [_, _], rfl, l (by decide) (by decide), l (by decide) (by decide), rfl⟩
  · exact ⟨[_, _], _, [_], rfl, l (by decide) (by decide), l (by decide) (by decide), rfl⟩
  · refine ⟨[], _, [_, _, _], rfl, l (by decide) (by decide), l (by decide) (by decide), _, rfl, ?_, .inr ?_⟩
    · refine ⟨[_, _], _, [], rfl, l (by decide) (by decide), l (by decide) (by decide), _, rfl, .inl ⟨rfl, ?_⟩, .inr ?_⟩
      · exact .inr ⟨[_], _, [], rfl, l (by decide) (by decide), l (by decide) (by decide), .inl rfl⟩
      · exact ⟨[], _, [_], rfl, l (by decide) (by decide), l (by decide) (by decide), rfl⟩
    · refine ⟨[], _, [_, _], rfl, l (by decide) (by decide), l (by decide) (by decide), .cons ?_ (.cons ?_ .nil)⟩
      · exact ⟨_, rfl, [_], _, [], rfl, l (by decide) (by decide), l (by decide) (by decide), _, rfl, .inl ⟨4, rfl, hd (by decide +kernel)⟩, by decide, by decide⟩
      · exact ⟨_, rfl, [], _, [], rfl, l (by decide) (by decide), l (by decide) (by decide), _, rfl, .inl ⟨12, rfl, hd (by decide +kernel)⟩, by decide, by decide⟩

example : (Json.parse breakpointsText).map (·.text) = some breakpointsValue.text := by decide +kernel

/-- The full claim, that members the protocol does not know are ignored, is false: names are compared without regard to the case
of letters, and the last one wins. -/
theorem C106_false : ∃ s, (Json.parse s).map (·.text) = some (Json.obj [(b!"seq", .num b!"3"), (b!"type", .str b!"request"),
      (b!"command", .str b!"continue"), (b!"arguments", .obj [(b!"threadId", .num b!"1"), (b!"ThreadID", .num b!"2")])]).text ∧
    DapWire.message (fun _ => none) s = (b!"continue", ⟨3, .continue_ (some 2)⟩) :=
  ⟨b!"{\"seq\":3,\"type\":\"request\",\"command\":\"continue\",\"arguments\":{\"threadId\":1,\"ThreadID\":2}}", by decide +kernel⟩

/-- What is read from a body. -/
theorem right_reads {file : Bytes → Option Bytes} {f : DapSpec.Frame} (h : f.Right file) :
    ((DapWire.message file f.2.1).2 = f.msg ∨ (DapWire.message file f.2.1).2.cmd = .other ∧ f.msg = ⟨0, .other⟩) ∧
    (f.msg.cmd ≠ .other → ∃ c, f.2.2 = some (f.msg.seq, (DapWire.message file f.2.1).1, c)) := by
  unfold DapSpec.Frame.Right at h
  unfold DapSpec.Frame.msg
  split at h
  · rename_i seq name c e
    obtain ⟨n, j, h1, h2, h3⟩ := h
    rw [C106_partial h2 h1 h3, e]
    exact ⟨.inl rfl, fun _ => ⟨c, rfl⟩⟩
  · rename_i e
    rw [e]
    refine ⟨.inr ⟨?_, rfl⟩, fun h => (h rfl).elim⟩
    rcases h with h | ⟨n, j, h1, h2, h3⟩
    · have : DapWire.message file f.2.1 = ([], ⟨0, .other⟩) := by
        unfold DapWire.message
        cases hp : Json.parse f.2.1 with
        | none => rfl
        | some j => exact (h ⟨j, C100_rejected hp⟩).elim
      rw [this]
    · exact DapSpec.message_other h2 h1 h3

theorem handles_other {env : Env} {d : Dbg} {m : Msg} {r : Outcome} (h : Handles env d m r) (ho : m.cmd = .other) : r = { outs := [], next := some d } := by
  obtain ⟨seq, c⟩ := m
  cases ho
  cases h with
  | plain _ h => cases h; rfl
  | continue_ a h => cases h

theorem handles_same {env : Env} {d : Dbg} {m m' : Msg} {r : Outcome} (h : Handles env d m r) (ho : m.cmd = .other) (ho' : m'.cmd = .other) :
    Handles env d m' r := by
  rw [handles_other h ho]
  obtain ⟨seq, c⟩ := m'
  cases ho'
  exact .plain (.inr (by simp)) rfl

theorem right_handles {env : Env} {d : Dbg} {r : Outcome} {file : Bytes → Option Bytes} {f : DapSpec.Frame} (h : f.Right file) :
    Handles env d (DapWire.message file f.2.1).2 r ↔ Handles env d f.msg r := by
  rcases (right_reads h).1 with e | ⟨e1, e2⟩
  · rw [e]
  · have e3 : f.msg.cmd = .other := by rw [e2]
    exact ⟨fun h => handles_same h e1 e3, fun h => handles_same h e3 e1⟩

/-- The rounds of the loop. -/
theorem serves_sends {env : Env} {files : Nat → Bytes → Option Bytes} {texts : Nat → Bytes} {bs : List Bytes} {out : Bytes} {d : Option Dbg}
    (h : DapWire.Serves env files texts bs out d) : ∀ fs : List DapSpec.Frame, bs = fs.map (·.2.1) →
      (∀ (i : Nat) (f : DapSpec.Frame), fs[i]? = some f → f.Right (files i)) →
      ∃ sent : List (Bytes × Bytes × Sent), out = (sent.map (·.1)).flatMap writeFrame ∧ Sends env (fs.map (·.msg)) (sent.map (·.2.2)) d ∧
        ∀ x ∈ sent, ((x.2.2.body = .empty → x.2.1 ∉ demanding) → Shows x.2.1 x.2.2 x.1) ∧
          ∀ seq ok, x.2.2.response = some (seq, ok) → ∃ f ∈ fs, ∃ c, f.2.2 = some (seq, x.2.1, c) := by
  induction h with
  | new =>
    intro fs e _
    cases fs with
    | nil => exact ⟨[], rfl, .new, fun _ h => by cases h⟩
    | cons f fs => cases e
  | @body bs out d b r hs hh ih =>
    intro fs e hf
    rcases List.eq_nil_or_concat fs with rfl | ⟨fs, f, rfl⟩
    · simp at e
    rw [List.concat_eq_append] at *
    rw [List.map_append] at e
    obtain ⟨e1, e2⟩ := List.append_inj' e rfl
    obtain ⟨sent, h1, h2, h3⟩ := ih fs e1 (by
      intro i g hg
      refine hf i g ?_
      rw [List.getElem?_append_left (by
        have := List.getElem?_eq_some_iff.1 hg
        exact this.1)]
      exact hg)
    have hlen : bs.length = fs.length := by rw [e1]; simp
    have hr := hf fs.length f (by simp)
    have hb : b = f.2.1 := by simpa using e2
    rw [← hlen] at hr
    obtain ⟨r1, r2⟩ := right_reads hr
    have hh' := (right_handles hr).1 (hb ▸ hh)
    rw [← hb] at r1 r2
    refine ⟨sent ++ r.outs.map fun o => ((DapWire.sentOut (DapWire.message (files bs.length) b).1 (texts o.seq) o).text,
      (DapWire.message (files bs.length) b).1, o), ?_, ?_, ?_⟩
    · rw [h1]
      simp [List.flatMap_map]
    · rw [List.map_append, List.map_append]
      have := Sends.msg f.msg h2 hh'
      simpa [Function.comp_def] using this
    · intro x hx
      rcases List.mem_append.1 hx with hx | hx
      · obtain ⟨g1, g2⟩ := h3 x hx
        refine ⟨g1, fun seq ok e => ?_⟩
        obtain ⟨f, hf, c, hc⟩ := g2 seq ok e
        exact ⟨f, by simp [hf], c, hc⟩
      · obtain ⟨o, ho, rfl⟩ := List.mem_map.1 hx
        obtain ⟨p1, p2⟩ := handles_sent hh o ho
        refine ⟨?_, ?_⟩
        · intro hd
          obtain ⟨n, k, k1, k2⟩ := C100_written (sent_numeric (DapWire.message (files bs.length) b).1 (texts o.seq) o)
          exact ⟨_, k, n, sees_sent _ _ p2 (fun e _ => hd e), k1, k2⟩
        · intro seq ok e
          have := p1 seq ok e
          subst this
          have hne : f.msg.cmd ≠ .other := by
            intro h
            rw [handles_other hh' h] at ho
            cases ho
          obtain ⟨c, hc⟩ := r2 hne
          rcases r1 with r1 | ⟨-, r1⟩
          · rw [r1]
            exact ⟨f, by simp, c, hc⟩
          · rw [r1] at hne
            exact (hne rfl).elim

/-- C107 (partial): when a client sends frames with requests of the protocol, the adapter does what they ask for, in order, and
what it writes is a stream of frames, one for each message it sends; each holds a JSON text of the message as the protocol has it,
and responses have the number and the command of a request that was sent.  This is not for the commands that are answered with no
body though the protocol has one. -/
theorem C107_partial {env : Env} {files : Nat → Bytes → Option Bytes} {texts : Nat → Bytes} (frames : List DapSpec.Frame)
    (hv : ∀ f ∈ frames, Valid f.1 f.2.1 ∧ f.2.1.length < 2 ^ 63) (hm : ∀ (i : Nat) (f : DapSpec.Frame), frames[i]? = some f → f.Right (files i))
    {out : Bytes} {d : Option Dbg} (h : DapWire.Debugs env files texts (frames.flatMap fun f => frameBytes f.1 f.2.1) out d)
    (hl : out.length < 2 ^ 63) :
    ∃ sent : List (Bytes × Bytes × Sent), bodies out = (sent.map (·.1), false) ∧
      (∃ k, Sends env ((frames.take k).map (·.msg)) (sent.map (·.2.2)) d ∧ (d ≠ none → k = frames.length)) ∧
      ∀ x ∈ sent, ((x.2.2.body = .empty → x.2.1 ∉ demanding) → Shows x.2.1 x.2.2 x.1) ∧
        ∀ seq ok, x.2.2.response = some (seq, ok) → ∃ f ∈ frames, ∃ c, f.2.2 = some (seq, x.2.1, c) := by
  have hb := C49_read (frames.map fun f => (f.1, f.2.1)) [] (by
    intro f hf
    obtain ⟨g, hg, rfl⟩ := List.mem_map.1 hf
    exact hv g hg) (.inl rfl)
  rw [List.append_nil, List.flatMap_map, List.map_map] at hb
  have key : ∀ k bs, bs = (frames.take k).map (·.2.1) → DapWire.Serves env files texts bs out d → (d ≠ none → k = frames.length) →
      ∃ sent : List (Bytes × Bytes × Sent), bodies out = (sent.map (·.1), false) ∧
      (∃ k, Sends env ((frames.take k).map (·.msg)) (sent.map (·.2.2)) d ∧ (d ≠ none → k = frames.length)) ∧
      ∀ x ∈ sent, ((x.2.2.body = .empty → x.2.1 ∉ demanding) → Shows x.2.1 x.2.2 x.1) ∧
        ∀ seq ok, x.2.2.response = some (seq, ok) → ∃ f ∈ frames, ∃ c, f.2.2 = some (seq, x.2.1, c) := by
    intro k bs e hs hk
    obtain ⟨sent, h1, h2, h3⟩ := serves_sends hs (frames.take k) e (by
      intro i f hf
      rw [List.getElem?_take] at hf
      split at hf
      · exact hm i f hf
      · cases hf)
    refine ⟨sent, ?_, ⟨k, h2, hk⟩, ?_⟩
    · rw [h1]
      refine C49 _ ?_
      intro b hb
      refine Nat.lt_of_le_of_lt ?_ hl
      rw [h1]
      obtain ⟨l1, l2, e⟩ := List.append_of_mem hb
      rw [e]
      simp only [List.flatMap_append, List.flatMap_cons, List.length_append, writeFrame]
      omega
    · intro x hx
      obtain ⟨g1, g2⟩ := h3 x hx
      refine ⟨g1, fun seq ok e => ?_⟩
      obtain ⟨f, hf, c, hc⟩ := g2 seq ok e
      exact ⟨f, List.mem_of_mem_take hf, c, hc⟩
  cases h with
  | ended hs he =>
    rw [hb] at hs
    exact key frames.length _ (by rw [List.take_length]; rfl) hs fun _ => rfl
  | @crashed bs rest e hs =>
    rw [hb] at e
    refine key bs.length bs ?_ hs fun h => (h rfl).elim
    rw [List.map_take]
    have e : frames.map (·.2.1) = bs ++ rest := e
    rw [e, List.take_left]
  | refused _ he => rw [hb] at he; cases he

/-- C107, the other way: whatever the requests can lead to, the adapter can do when it gets them as frames. -/
theorem C107_served {env : Env} {files : Nat → Bytes → Option Bytes} (texts : Nat → Bytes) (frames : List DapSpec.Frame)
    (hv : ∀ f ∈ frames, Valid f.1 f.2.1 ∧ f.2.1.length < 2 ^ 63) (hm : ∀ (i : Nat) (f : DapSpec.Frame), frames[i]? = some f → f.Right (files i))
    {outs : List Sent} {d : Option Dbg} (h : Sends env (frames.map (·.msg)) outs d) :
    ∃ out, DapWire.Debugs env files texts (frames.flatMap fun f => frameBytes f.1 f.2.1) out d := by
  have hb := C49_read (frames.map fun f => (f.1, f.2.1)) [] (by
    intro f hf
    obtain ⟨g, hg, rfl⟩ := List.mem_map.1 hf
    exact hv g hg) (.inl rfl)
  rw [List.append_nil, List.flatMap_map, List.map_map] at hb
  have key : ∀ (ms : List Msg), Sends env ms outs d → ∀ fs : List DapSpec.Frame, ms = fs.map (·.msg) → (∀ (i : Nat) (f : DapSpec.Frame), fs[i]? = some f → f.Right (files i)) →
      ∃ out, DapWire.Serves env files texts (fs.map (·.2.1)) out d := by
    intro ms h''
    clear hb hm hv h
    induction h'' with
    | new =>
      intro fs e _
      cases fs with
      | nil => exact ⟨[], .new⟩
      | cons f fs => cases e
    | @msg ms outs d m r hs hh ih =>
      intro fs e hf
      rcases List.eq_nil_or_concat fs with rfl | ⟨fs, f, rfl⟩
      · simp at e
      rw [List.concat_eq_append] at *
      rw [List.map_append] at e
      obtain ⟨e1, e2⟩ := List.append_inj' e rfl
      obtain ⟨out, ih⟩ := ih fs e1 (by
        intro i g hg
        refine hf i g ?_
        rw [List.getElem?_append_left (by
          have := List.getElem?_eq_some_iff.1 hg
          exact this.1)]
        exact hg)
      have hr := hf fs.length f (by simp)
      have hm : m = f.msg := by simpa using e2
      rw [hm, ← right_handles hr] at hh
      rw [List.map_append]
      refine ⟨_, .body f.2.1 ih ?_⟩
      rw [List.length_map]
      exact hh
  obtain ⟨out, hs⟩ := key _ h frames rfl hm
  exact ⟨out, .ended (by rw [hb]; exact hs) (by rw [hb])⟩

/-- A request for a command without arguments. -/
def bareRequest (name : Bytes) : Json := .obj [(b!"seq", .num b!"1"), (b!"type", .str b!"request"), (b!"command", .str name)]

/-- The full claim is false: the response to `evaluate` has no body, though the protocol demands one, and so for
`setFunctionBreakpoints` and `setInstructionBreakpoints`. -/
theorem C107_false {env : Env} {files : Nat → Bytes → Option Bytes} {texts : Nat → Bytes} (name : Bytes) (hn : name ∈ demanding) :
    DapSpec.Asks (files 0) (bareRequest name) 1 name (.plain name) ∧
    ∃ out d, DapWire.Debugs env files texts (writeFrame (bareRequest name).text) out (some d) ∧
      bodies out = ([(Json.obj [(b!"seq", .num b!"1"), (b!"type", .str b!"response"), (b!"request_seq", .num b!"1"),
        (b!"success", .bool true), (b!"command", .str name)]).text], false) := by
  have hd : ∀ {n : Nat} {s : Bytes}, formatUint n = s → DecimalOf n s := fun h => h ▸ formatUint_decimal _
  have ha : DapSpec.Asks (files 0) (bareRequest name) 1 name (.plain name) := by
    refine ⟨_, rfl, ?_, ?_, ?_, .plain ?_⟩
    · exact has_find (by decide) rfl ⟨_, rfl, .inl ⟨1, rfl, hd (by decide +kernel)⟩, by decide, by decide⟩
    · exact has_find (by decide) rfl rfl
    · exact has_find (by decide) rfl rfl
    · revert hn; unfold demanding; simp; rintro (h | h | h) <;> simp [h]
  refine ⟨ha, ?_⟩
  have hb : bodies (writeFrame (bareRequest name).text) = ([(bareRequest name).text], false) := by
    have := C49 [(bareRequest name).text] (by
      intro b hb
      rw [List.mem_singleton.1 hb]
      revert hn; unfold demanding; simp; rintro (rfl | rfl | rfl) <;> decide +kernel)
    simpa using this
  have hp : Json.parse (bareRequest name).text = some (bareRequest name) := by
    revert hn; unfold demanding; simp; rintro (rfl | rfl | rfl) <;> rfl
  have hm : DapWire.message (files 0) (bareRequest name).text = (name, ⟨1, .plain name⟩) := by
    unfold DapWire.message
    rw [hp]
    revert hn; unfold demanding; simp only [List.mem_cons, List.not_mem_nil, or_false]; rintro (rfl | rfl | rfl) <;> rfl
  have hh : Dbg.new.handle env ⟨1, .plain name⟩ = some { outs := [⟨1, some (1, true), .empty⟩], next := some { Dbg.new with id := 1 } } := by
    revert hn; unfold demanding; simp only [List.mem_cons, List.not_mem_nil, or_false]; rintro (rfl | rfl | rfl) <;> rfl
  have hs := DapWire.Serves.body (files := files) (texts := texts) (bareRequest name).text (.new (env := env)) (r := { outs := [⟨1, some (1, true), .empty⟩], next := some { Dbg.new with id := 1 } })
    (by rw [List.length_nil, hm]; exact .plain (.inl rfl) hh)
  rw [List.length_nil, hm] at hs
  refine ⟨_, _, .ended (by rw [hb]; exact hs) (by rw [hb]), ?_⟩
  have := C49 [(Json.obj [(b!"seq", .num b!"1"), (b!"type", .str b!"response"), (b!"request_seq", .num b!"1"),
        (b!"success", .bool true), (b!"command", .str name)]).text] (by
      intro b hb
      rw [List.mem_singleton.1 hb]
      revert hn; unfold demanding; simp only [List.mem_cons, List.not_mem_nil, or_false]; rintro (rfl | rfl | rfl) <;> decide +kernel)
  have e : Wire.num 1 = .num b!"1" := by unfold Wire.num; rw [show formatInt 1 = b!"1" by decide +kernel]
  rw [← this]
  simp only [List.nil_append, List.flatMap_cons, List.flatMap_nil, List.append_nil]
  unfold DapWire.sentOut
  simp only [DapWire.bodyOut, List.append_nil]
  rw [show (((1 : Nat) : Int)) = 1 from rfl, e]

/-- A request for the threads. -/
def threadsText : Bytes := b!"{\"seq\":1,\"type\":\"request\",\"command\": \"threads\"}"

/-- A session of two frames, a request and one that is not JSON, that meets the hypotheses. -/
example : ∃ (frames : List DapSpec.Frame) (out : Bytes) (d : Dbg), frames.map (·.msg) = [⟨1, .threads⟩, ⟨0, .other⟩] ∧
    (∀ f ∈ frames, Valid f.1 f.2.1 ∧ f.2.1.length < 2 ^ 63) ∧ (∀ (i : Nat) (f : DapSpec.Frame), frames[i]? = some f → f.Right fun _ => none) ∧
    DapWire.Debugs sampleEnv (fun _ _ => none) (fun _ => []) (frames.flatMap fun f => frameBytes f.1 f.2.1) out (some d) := by
  have hd : ∀ {n : Nat} {s : Bytes}, formatUint n = s → DecimalOf n s := fun h => h ▸ formatUint_decimal _
  have ha : DapSpec.Asks (fun _ => none) (bareRequest b!"threads") 1 b!"threads" .threads :=
    ⟨_, rfl, has_find (by decide) rfl ⟨_, rfl, .inl ⟨1, rfl, hd (by decide +kernel)⟩, by decide, by decide⟩,
      has_find (by decide) rfl rfl, has_find (by decide) rfl rfl, .threads⟩
  have hn : JsonNumber b!"1" := ⟨[], b!"1", [], [], rfl, .inl rfl, .inr ⟨⟨by decide, by decide⟩, by decide⟩, .inl rfl, .inl rfl⟩
  have hs : Spells 1 threadsText (bareRequest b!"threads") := by
    refine ⟨[], _, [], by decide, .obj (s := b!"\"seq\":1,\"type\":\"request\",\"command\": \"threads\"") ?_, by decide, rfl⟩
    refine .members (a := []) (k := b!"seq") (b := []) (c := []) (s := b!"1") (d := []) (t := b!"\"type\":\"request\",\"command\": \"threads\"")
      (by decide) (plain_chars (by decide)) (by decide) (by decide) (.num hn) (by decide) ?_
    refine .members (a := []) (k := b!"type") (b := []) (c := []) (s := b!"\"request\"") (d := []) (t := b!"\"command\": \"threads\"")
      (by decide) (plain_chars (by decide)) (by decide) (by decide) (.str (s := b!"request") (plain_chars (by decide))) (by decide) ?_
    exact .member (a := []) (k := b!"command") (b := []) (c := b!" ") (s := b!"\"threads\"") (d := [])
      (by decide) (plain_chars (by decide)) (by decide) (by decide) (.str (s := b!"threads") (plain_chars (by decide))) (by decide)
  have hno : ¬ ∃ j, SpellsLoosely 10000 b!"" j := by
    rintro ⟨j, a, t, b, -, h, -, e⟩
    have ht : t = [] := by
      have := congrArg List.length e
      simp at this
      exact List.length_eq_zero_iff.1 (by omega)
    subst ht
    generalize hp : Phrase.value j = p at h
    generalize hx : ([] : Bytes) = x at h
    cases h <;> simp at hx hp
    rename_i h
    subst hx
    obtain ⟨sign, whole, frac, exp, e, -, hw, -⟩ := h
    have : whole = [] := by
      have := congrArg List.length e
      simp at this
      exact List.length_eq_zero_iff.1 (by omega)
    rcases hw with h | ⟨⟨h, -⟩, -⟩
    · rw [this] at h; cases h
    · exact h this
  let frames : List DapSpec.Frame := [([(b!"Content-Length", formatUint threadsText.length)], threadsText, some (1, b!"threads", .threads)),
    ([(b!"Content-Length", formatUint 0)], [], none)]
  have hv : ∀ f ∈ frames, Valid f.1 f.2.1 ∧ f.2.1.length < 2 ^ 63 := by
    intro f hf
    rcases List.mem_cons.1 hf with rfl | hf
    · exact ⟨(writeFrame_valid threadsText).1, by decide⟩
    · rw [List.mem_singleton.1 hf]
      exact ⟨(writeFrame_valid []).1, by decide⟩
  have hm : ∀ (i : Nat) (f : DapSpec.Frame), frames[i]? = some f → f.Right fun _ => none := by
    intro i f hf
    match i with
    | 0 => cases hf; exact ⟨1, _, by decide, hs, ha⟩
    | 1 => cases hf; exact .inl hno
    | i + 2 => cases hf
  obtain ⟨out, h⟩ := C107_served (env := sampleEnv) (files := fun _ _ => none) (fun _ => []) frames hv hm
    (.msg ⟨0, .other⟩ (.msg ⟨1, .threads⟩ .new (.plain (.inl rfl) rfl)) (.plain (.inr (by simp)) rfl))
  exact ⟨frames, out, _, rfl, hv, hm, h⟩

/-- An event from the client is no request. -/
example : DapSpec.NoRequest (.obj [(b!"seq", .num b!"2"), (b!"type", .str b!"event"), (b!"event", .str b!"stopped")]) ∧
    DapWire.message (fun _ => none) b!"{\"seq\":2,\"type\":\"response\",\"command\":\"threads\"}" = ([], ⟨2, .other⟩) := by
  refine ⟨⟨_, rfl, ⟨has_find (by decide) rfl ⟨2, _, rfl, .inl ⟨2, rfl, ?_⟩, by decide, by decide⟩, _, has_find (by decide) rfl rfl, by decide⟩⟩, rfl⟩
  exact ⟨[2], ⟨rfl, by decide⟩, rfl, by decide, by decide⟩

end Teal.Props
