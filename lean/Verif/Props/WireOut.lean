import Verif.Props.Wire
import Verif.Props.Lsp2
import Verif.Props.Rename
import Verif.Lemmas.Clean

/-!
# C103, C104: the messages of the server as JSON texts
-/

namespace Teal.Props

open Teal Teal.Spec Teal.JsonSpec Teal.WireSpec Teal.Frame Teal.Frame.Spec

/-- Every response answers a message. -/
theorem response_of (h : Lsp.Host) (ms : List (Lsp.Choice × Lsp.Msg)) : ∀ s ∈ (Lsp.run h ms).sent, ∀ i, Lsp.Spec.responseTo s = some i →
    ∃ x ∈ ms, x.2.id = i := by
  suffices ∀ (n : Nat) (ms : List (Lsp.Choice × Lsp.Msg)), ms.length = n → ∀ s ∈ (Lsp.run h ms).sent, ∀ i, Lsp.Spec.responseTo s = some i →
      ∃ x ∈ ms, x.2.id = i from this _ ms rfl
  intro n
  induction n with
  | zero =>
    intro ms hl s hs
    rw [List.length_eq_zero_iff.1 hl] at hs
    cases hs
  | succ n ih =>
    intro ms hl s hs i hi
    rcases List.eq_nil_or_concat ms with rfl | ⟨ms, x, rfl⟩
    · cases hs
    have hl : ms.length = n := by simpa using hl
    rw [List.concat_eq_append] at hs ⊢
    rcases C48_at_most_one_partial h ms x with e | ⟨s', e, -, -, hr⟩
    · rw [e] at hs
      obtain ⟨y, hy, hy'⟩ := ih ms hl s hs i hi
      exact ⟨y, by simp [hy], hy'⟩
    · rw [e] at hs
      rcases List.mem_append.1 hs with hs | hs
      · obtain ⟨y, hy, hy'⟩ := ih ms hl s hs i hi
        exact ⟨y, by simp [hy], hy'⟩
      · rw [List.mem_singleton] at hs
        subst hs
        rcases hr with hr | ⟨hr, -⟩
        · rw [hi] at hr; injection hr with hr; exact ⟨x, by simp, hr.symm⟩
        · rw [hi] at hr; cases hr

/-- Ids are written so that they can be read. -/
theorem id_parse {ms : List (Bytes × Json)} {id : Json} (h : IsId ms id) (hp : Proper id) : Json.parse id.text = some id := by
  cases h with
  | none _ => rfl
  | str h =>
    obtain ⟨n, h⟩ := text_spelled hp
    have key : ∀ {n : Nat} {x : Bytes} {p : Phrase}, Spelled False n x p → ∀ s, p = .value (.str s) → Spelled False 0 x p := by
      intro n x p h s e
      cases h with
      | str h => exact .str h
      | _ => cases e
    exact parse_complete (n := 0) ⟨[], _, [], ws_nil, key h _ rfl, ws_nil, by simp⟩ (by decide)
  | num h =>
    cases hp with
    | num hp => exact parse_complete (n := 0) ⟨[], _, [], ws_nil, .num hp, ws_nil, by simp [Json.text]⟩ (by decide)

/-- C103 (partial): what the server writes is a stream of frames, one for each message; each holds a JSON text of the message as
the protocol has it, and responses have the id of a request.  This is not for the answers `[]` to `shutdown` and `{}` when there is
nothing to answer. -/
theorem C103_partial (h : Lsp.Host) (hfmt : CleanFormat h) {number : Bytes → Option Bytes} (hn : Faithful number) (choices : Nat → Lsp.Choice)
    (t : Wire.Texts) (ht : CleanTexts t)
    (frames : List (List (Bytes × Bytes) × Bytes × Option (Json × Lsp.Call)))
    (hv : ∀ f ∈ frames, Valid f.1 f.2.1 ∧ f.2.1.length < 2 ^ 63)
    (hm : ∀ f ∈ frames, Carries f.2.1 f.2.2)
    (hl : ∀ x ∈ (serve h (Wire.message number) choices (frames.flatMap fun f => frameBytes f.1 f.2.1)).sent, (Wire.sent t x).length < 2 ^ 63) :
    let s := serve h (Wire.message number) choices (frames.flatMap fun f => frameBytes f.1 f.2.1)
    bodies (Frame.written (Wire.sent t) s) = (s.sent.map (Wire.sent t), false) ∧
    ∀ x ∈ s.sent, (∀ i r, x = .reply i r → Something r) →
      ∃ id n k, Spells n (Wire.sent t x) k ∧ Sees id x k ∧
        (Lsp.Spec.responseTo x ≠ none → ∃ f ∈ frames, ∃ c, f.2.2 = some (id, c) ∧ Lsp.Spec.responseTo x = some id.text) := by
  intro s
  refine ⟨?_, ?_⟩
  · have := C49 (s.sent.map (Wire.sent t)) (by
      intro b hb
      obtain ⟨x, hx, rfl⟩ := List.mem_map.1 hb
      exact hl x hx)
    rw [List.flatMap_map] at this
    exact this
  · intro x hx hs
    obtain ⟨hu, hf⟩ : CleanSent x := by
      have hx : x ∈ s.sent := hx
      rw [show s = _ from C102 h hn choices frames hv hm] at hx
      refine clean_run hfmt _ ?_ x hx
      intro m hm' v hv'
      obtain ⟨⟨f, k⟩, hf, e'⟩ := List.mem_filterMap.1 hm'
      have hf' : f ∈ frames := List.mem_of_getElem? (List.mem_zipIdx_iff_getElem?.1 hf)
      cases hc : f.2.2 with
      | none => rw [hc] at e'; cases e'
      | some p =>
        obtain ⟨id, c'⟩ := p
        rw [hc] at e'
        cases e'
        have hm := hm f hf'
        rw [hc] at hm
        obtain ⟨n, j, -, hsp, ha⟩ := hm
        have := asks_each ha (spells_each hsp) v hv'
        exact ⟨this.1, Nat.lt_of_le_of_lt this.2 (hv f hf').2⟩
    have key : ∃ id, Proper id ∧ (Json.parse (Wire.idText x)).getD .null = id ∧
        (Lsp.Spec.responseTo x ≠ none → ∃ f ∈ frames, ∃ c, f.2.2 = some (id, c) ∧ Lsp.Spec.responseTo x = some id.text) := by
      have hx : x ∈ s.sent := hx
      rw [show s = _ from C102 h hn choices frames hv hm] at hx
      have hr := response_of h _ x hx
      cases hi : Lsp.Spec.responseTo x with
      | none =>
        cases x with
        | reply i r => cases hi
        | fail i r => cases hi
        | applyEdit n l u es => exact ⟨.null, .null, rfl, fun h => (h rfl).elim⟩
      | some i =>
        obtain ⟨⟨c, m⟩, hy, e⟩ := hr i hi
        obtain ⟨⟨f, k⟩, hf, e'⟩ := List.mem_filterMap.1 hy
        have hf' : f ∈ frames := by
          have := List.mem_zipIdx_iff_getElem?.1 hf
          exact List.mem_of_getElem? this
        cases hc : f.2.2 with
        | none => rw [hc] at e'; cases e'
        | some p =>
          obtain ⟨id, c'⟩ := p
          rw [hc] at e'
          cases e'
          have hm := hm f hf'
          rw [hc] at hm
          obtain ⟨n, j, -, hsp, ha⟩ := hm
          have hid : Proper id := by
            obtain ⟨_, _, _, -, h, -, -⟩ := hsp
            exact asks_id ha (spelled_proper h)
          have hxi : Wire.idText x = id.text := by
            cases x with
            | reply i r => cases hi; exact e.symm
            | fail i r => cases hi; exact e.symm
            | applyEdit n l u es => cases hi
          obtain ⟨ms, method, rfl, -, h2, -⟩ := ha
          exact ⟨id, hid, by rw [hxi, id_parse h2 hid]; rfl, fun _ => ⟨f, hf', c', hc, by rw [← e]⟩⟩
    obtain ⟨id, hid, e, hrest⟩ := key
    obtain ⟨n, hn⟩ := C100_written_same (sent_proper ht hid hu)
    refine ⟨id, n, _, ?_, sees_sent t id hs hf, hrest⟩
    show Spells n (Wire.sentOut t _ x).text _
    rw [e]
    exact hn

/-- A session over the wire: the client opens a document, asks for code actions and is answered. -/
def sampleTexts : Wire.Texts where
  hover := fun _ => b!"h"
  operand := fun _ => b!"m"
  fullDoc := fun _ => []
  opDoc := fun _ => []
  argDoc := fun _ => []

example : (serve sampleHost (Wire.message some) (fun _ => sampleChoice)
    ([b!"{\"method\":\"textDocument/didOpen\",\"params\":{\"textDocument\":{\"uri\":\"u\",\"version\":1,\"text\":\"b x\"}},\"jsonrpc\":\"2.0\"}",
      b!"{\"method\":\"textDocument/codeAction\",\"id\":7,\"params\":{\"textDocument\":{\"uri\":\"u\"},\"range\":{\"start\":{\"line\":0,\"character\":0},\"end\":{\"line\":1,\"character\":0}},\"context\":{\"diagnostics\":[]}},\"jsonrpc\":\"2.0\"}"].flatMap
      writeFrame)).sent.map (Wire.sent sampleTexts) =
    [b!"{\"jsonrpc\":\"2.0\",\"result\":[{\"title\":\"Update version to 2\",\"kind\":\"quickfix\",\"command\":{\"title\":\"Update version\",\"command\":\"teal.version.update\",\"arguments\":[{\"uri\":\"u\",\"version\":2}]}}],\"id\":7}"] := by
  decide +kernel

example : CleanTexts sampleTexts ∧ CleanFormat sampleHost := by
  have a : ∀ s : Bytes, (s.all (· < 128)) = true → Utf8 s := fun s h => ascii_utf8 fun c hc => by simpa using List.all_eq_true.1 h c hc
  exact ⟨⟨fun _ => a _ rfl, fun _ => a _ rfl, fun _ => a _ rfl, fun _ => a _ rfl, fun _ => a _ rfl⟩, fun s h => h⟩

/-- The full claim is false: `shutdown` is answered with `[]` and a hover over nothing with `{}`, where the protocol has `null`. -/
theorem C103_false (t : Wire.Texts) :
    (∃ x, (Lsp.run sampleHost [(sampleChoice, ⟨false, b!"1", .shutdown⟩)]).sent = [x] ∧ ¬ ∃ n k id, n ≤ 10000 ∧ Spells n (Wire.sent t x) k ∧ Sees id x k) ∧
    ∃ x, (Lsp.run sampleHost (openSession [] ++ [(sampleChoice, ⟨false, b!"9", .query (.given (b!"u", .hover ⟨0, 0⟩))⟩)])).sent = [x] ∧
      ¬ ∃ n k id, n ≤ 10000 ∧ Spells n (Wire.sent t x) k ∧ Sees id x k := by
  have key : ∀ {x : Lsp.Sent} {i : Bytes} {r : Lsp.Result} {vs v id' : Json}, x = .reply i r → (r = .emptyList ∨ r = .emptyObject) →
      Json.parse (Wire.sent t x) = some (.obj [(b!"jsonrpc", v), (b!"result", vs), (b!"id", id')]) → vs ≠ .null →
      ¬ ∃ n k id, n ≤ 10000 ∧ Spells n (Wire.sent t x) k ∧ Sees id x k := by
    rintro x i r vs v id' rfl hr hp hne ⟨n, k, id, hn, hs, he⟩
    rw [parse_complete hs hn] at hp
    cases hp
    obtain ⟨ms, e, -, -, h, -⟩ := he
    cases e
    obtain ⟨w, hw, -, hres⟩ := has_pick h (f := b!"result") (by decide) rfl
    have : w = vs := by
      have : pick [(b!"jsonrpc", v), (b!"result", vs), (b!"id", id')] b!"result" = some vs := rfl
      rw [this] at hw; cases hw; rfl
    subst this
    rcases hr with rfl | rfl <;> exact hne hres
  exact ⟨⟨.reply b!"1" .emptyList, by decide +kernel, key rfl (.inl rfl) (by rfl) (by rintro ⟨⟩)⟩,
    ⟨.reply b!"9" .emptyObject, by decide +kernel, key rfl (.inr rfl) (by rfl) (by rintro ⟨⟩)⟩⟩

/-- C104: a client that sends back the name and the arguments of the command of an offered action asks for that action: each
action of an answer has a command, and a request with the command's name and arguments is read as the request to execute it. -/
theorem C104 {number : Bytes → Option Bytes} (hn : Faithful number) {i : Bytes} {cs : List Lsp.Action} {id k : Json}
    (hk : Sees id (.reply i (.codeActions cs)) k) :
    ∃ ms vs, k = .obj ms ∧ Has ms b!"result" (· = .arr vs) ∧ vs.length = cs.length ∧
      ∀ p ∈ cs.zip vs, ∃ as cmd, p.2 = .obj as ∧ Has as b!"command" (· = cmd) ∧
        ∀ (n : Nat) (s : Bytes) (j id' : Json), n ≤ 10000 → Spells n s j → Executes j id' cmd →
          Wire.message number s = some { id := id'.text, call := .executeCommand (.given (some [p.1.command])) } := by
  obtain ⟨ms, rfl, -, -, h, -, -⟩ := hk
  obtain ⟨v, hv, h⟩ := h.exact
  have hlist : ∀ {cs : List Lsp.Action} {v : Json}, IsArr (cs.map SeesAction) v → ∃ vs, v = .arr vs ∧ vs.length = cs.length ∧
      ∀ p ∈ cs.zip vs, SeesAction p.1 p.2 := by
    intro cs
    induction cs with
    | nil => intro v h; cases h; exact ⟨[], rfl, rfl, by intro p hp; cases hp⟩
    | cons c cs ih =>
      intro v h
      cases h with
      | cons h hs =>
        obtain ⟨vs, e, hl, hp⟩ := ih hs
        cases e
        refine ⟨_, rfl, by simp [hl], ?_⟩
        intro p hp'
        rw [List.zip_cons_cons] at hp'
        rcases List.mem_cons.1 hp' with rfl | hp'
        · exact h
        · exact hp p hp'
  obtain ⟨vs, rfl, hl, hp⟩ := hlist hv
  refine ⟨ms, vs, rfl, h, hl, ?_⟩
  intro p hp'
  obtain ⟨as, e, -, -, hc, -, -⟩ := hp p hp'
  obtain ⟨cmd, hcmd, hc⟩ := hc.exact
  refine ⟨as, cmd, e, hc, ?_⟩
  intro n s j id' hd hs he
  refine message_reads hn hs hd ?_
  obtain ⟨cms, name, args, rfl, h1, h2, jms, rfl, h3, h4, h5, h6, h7, h8⟩ := he
  refine ⟨jms, _, rfl, h3, h4, h5, h6, h7, .executeCommand (h8.imp ?_)⟩
  rintro _ ⟨ps, rfl, h9, h10⟩
  obtain ⟨_, e', -, nm, h11, h12⟩ := hcmd
  cases e'
  obtain ⟨_, a1, -, rfl⟩ := has_pick h1 (f := b!"command") (by decide) rfl
  obtain ⟨_, a2, -, rfl⟩ := has_pick h2 (f := b!"arguments") (by decide) rfl
  obtain ⟨_, a3, -, rfl⟩ := has_pick h11 (f := b!"command") (by decide) rfl
  obtain ⟨_, a4, -, h13⟩ := has_pick h12 (f := b!"arguments") (by decide) rfl
  rw [a1] at a3; cases a3
  rw [a2] at a4; cases a4
  exact ⟨ps, rfl, nm, h9, h10.imp fun v e => e ▸ h13⟩

/-- The command of the example above, sent back by an editor that writes the members in its own order. -/
example : Wire.message some b!"{\"id\":8,\"params\":{\"arguments\":[{\"uri\":\"u\",\"version\":2}],\"command\":\"teal.version.update\"},\"method\":\"workspace/executeCommand\",\"jsonrpc\":\"2.0\"}" =
    some { id := b!"8", call := .executeCommand (.given (some [.versionUpdate b!"u" 2])) } := by decide +kernel

end Teal.Props
