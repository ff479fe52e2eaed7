import Verif.Lemmas.WireOut
import Verif.Props.Frame
import Verif.Props.Json

/-!
# C101, C102: the messages of a client as JSON texts
-/

namespace Teal.Props

open Teal Teal.Spec Teal.JsonSpec Teal.WireSpec Teal.Frame Teal.Frame.Spec

/-- C101: a JSON text of a request or notification of the protocol is understood, whatever the order of the members, the white
space and the escapes are and whatever other members there are; the id is kept. -/
theorem C101 {number : Bytes → Option Bytes} (hn : Faithful number) {n : Nat} {s : Bytes} {j id : Json} {c : Lsp.Call}
    (h : Spells n s j) (hd : n ≤ 10000) (ha : Asks j id c) :
    ∃ m, Wire.message number s = some m ∧ m.response = false ∧ m.call = c ∧ ∃ k, Spells k m.id id := by
  have h' := h
  obtain ⟨a, t, b, -, ht, -, -⟩ := h'
  exact ⟨_, message_reads hn h hd ha, rfl, rfl, C100_written_same (asks_id ha (spelled_proper ht))⟩

/-- A hover request with the members in an unusual order, an unknown member and an unusual spelling. -/
def hoverText : Bytes :=
  b!"{\"params\": {\"position\":{\"character\":3,\"line\":12},\"textDocument\":{\"uri\":\"file:\\/\\/\\u0061\"}, \"workDoneToken\": 1},\n\"method\":\"textDocument/hover\", \"id\": \"x\", \"jsonrpc\":\"2.0\"}"

/-- The value it stands for. -/
def hoverValue : Json :=
  .obj [(b!"params", .obj [(b!"position", .obj [(b!"character", .num b!"3"), (b!"line", .num b!"12")]),
      (b!"textDocument", .obj [(b!"uri", .str b!"file://a")]), (b!"workDoneToken", .num b!"1")]),
    (b!"method", .str b!"textDocument/hover"), (b!"id", .str b!"x"), (b!"jsonrpc", .str b!"2.0")]

/-- It is a request of the protocol. -/
example : Asks hoverValue (.str b!"x") (.query (.given (b!"file://a", .hover ⟨12, 3⟩))) := by
  have l : ∀ {ms : List (Bytes × Json)} {k : Bytes}, Ascii k → (ms.all fun m => !Wire.equalFold k m.1) = true → Lacks ms k := lacks_of
  have hd : ∀ {n : Nat} {s : Bytes}, formatUint n = s → DecimalOf n s := fun h => h ▸ formatUint_decimal _
  refine ⟨_, b!"textDocument/hover", rfl, ?_, .str ?_, ?_, l (by decide) (by decide), l (by decide) (by decide), .query (.hover _) ?_⟩
  · exact ⟨[_, _, _], _, [], rfl, l (by decide) (by decide), l (by decide) (by decide), rfl⟩
  · exact ⟨[_, _], _, [_], rfl, l (by decide) (by decide), l (by decide) (by decide), rfl⟩
  · exact ⟨[_], _, [_, _], rfl, l (by decide) (by decide), l (by decide) (by decide), rfl⟩
  · refine ⟨[], _, [_, _, _], rfl, l (by decide) (by decide), l (by decide) (by decide), _, rfl, ?_, ?_⟩
    · exact ⟨[_], _, [_], rfl, l (by decide) (by decide), l (by decide) (by decide), _, rfl, [], _, [], rfl, l (by decide) (by decide),
        l (by decide) (by decide), rfl⟩
    · refine ⟨[], _, [_, _], rfl, l (by decide) (by decide), l (by decide) (by decide), _, rfl, ?_, ?_⟩
      · exact ⟨[_], _, [], rfl, l (by decide) (by decide), l (by decide) (by decide), _, rfl, .inl ⟨12, rfl, hd (by decide +kernel)⟩, by decide, by decide⟩
      · exact ⟨[], _, [_], rfl, l (by decide) (by decide), l (by decide) (by decide), _, rfl, .inl ⟨3, rfl, hd (by decide +kernel)⟩, by decide, by decide⟩

example : (Json.parse hoverText).map (·.text) = some hoverValue.text ∧
    Wire.message some hoverText = some { id := b!"\"x\"", call := .query (.given (b!"file://a", .hover ⟨12, 3⟩)) } := by decide +kernel

example : Faithful some := fun _ _ _ _ _ => rfl

/-- The full claim, that members the protocol does not know are ignored, is false: names are compared without regard to the case
of letters, and the last one wins. -/
theorem C101_false : ∃ s, (Json.parse s).map (·.text) = some (Json.obj [(b!"jsonrpc", .str b!"2.0"), (b!"id", .num b!"1"),
      (b!"method", .str b!"textDocument/hover"), (b!"params", .obj [(b!"textDocument", .obj [(b!"uri", .str b!"u")]),
        (b!"position", .obj [(b!"line", .num b!"1"), (b!"character", .num b!"2"), (b!"Line", .num b!"7")])])]).text ∧
    Wire.message some s = some { id := b!"1", call := .query (.given (b!"u", .hover ⟨7, 2⟩)) } :=
  ⟨b!"{\"jsonrpc\":\"2.0\",\"id\":1,\"method\":\"textDocument/hover\",\"params\":{\"textDocument\":{\"uri\":\"u\"},\"position\":{\"line\":1,\"character\":2,\"Line\":7}}}",
    by decide +kernel⟩

theorem members_noMethod {number : Bytes → Option Bytes} : ∀ (ms : List (Bytes × Json)) (a b : Wire.Header), Lacks ms b!"method" → a.method = [] →
    Wire.members (Wire.headerFields number) a ms = some b → b.method = [] := by
  intro ms
  induction ms with
  | nil => intro a b _ ha h; cases h; exact ha
  | cons m ms ih =>
    obtain ⟨k, v⟩ := m
    intro a b hl ha h
    have hl' : Lacks ms b!"method" := fun x hx => hl x (by simp [hx])
    simp only [Wire.members] at h
    split at h
    · exact ih a b hl' ha h
    · rename_i d hd
      split at h
      · cases h
      · rename_i c hc
        refine ih c b hl' ?_ h
        obtain ⟨f, hf, hfk, rfl⟩ : ∃ f ∈ Wire.headerFields number, Alike f.1 k ∧ f.2 = d := by
          unfold Wire.lookup at hd
          split at hd
          · rename_i f hf
            cases hd
            have he := List.find?_some hf
            exact ⟨f, List.mem_of_find?_eq_some hf, by rw [beq_iff_eq.1 he]; exact alike_refl _, rfl⟩
          · obtain ⟨f, hf, rfl⟩ := Option.map_eq_some_iff.1 hd
            have hm := List.mem_of_find?_eq_some hf
            have he := List.find?_some hf
            exact ⟨f, hm, (alike_iff _ _ ((header_table number).ascii f hm)).1 he, rfl⟩
        have hne := hl (k, v) (by simp)
        simp only [Wire.headerFields, List.mem_cons, List.not_mem_nil, or_false] at hf
        rcases hf with rfl | rfl | rfl | rfl | rfl
        · obtain ⟨x, -, rfl⟩ := Option.map_eq_some_iff.1 hc; exact ha
        · obtain ⟨x, -, rfl⟩ := Option.map_eq_some_iff.1 hc; exact ha
        · exact absurd hfk hne
        · obtain ⟨x, -, rfl⟩ := Option.map_eq_some_iff.1 hc; exact ha
        · obtain ⟨x, -, rfl⟩ := Option.map_eq_some_iff.1 hc; exact ha

/-- What asks for nothing is dropped or counts as a response. -/
theorem message_noCall {number : Bytes → Option Bytes} {s : Bytes} (h : Carries s none) {m : Lsp.Msg}
    (hm : Wire.message number s = some m) : m.response = true := by
  unfold Wire.message at hm
  split at hm
  · cases hm
  · rename_i j hp
    have hno : NoCall j := by
      rcases h with h | ⟨n, k, h1, h2, h3⟩
      · exact absurd ⟨j, C100_rejected hp⟩ h
      · have := C100_understood h2 h1
        rw [hp] at this
        cases this
        exact h3
    split at hm
    · cases hm
    · rename_i hd hh
      cases hm
      have : hd.method = [] := by
        cases j with
        | null => cases hh; rfl
        | obj ms => exact members_noMethod ms _ _ (hno ms rfl) rfl hh
        | bool _ => cases hh
        | num _ => cases hh
        | str _ => cases hh
        | arr _ => cases hh
      simp [this]

theorem run_noResponse (h : Lsp.Host) (ms : List (Lsp.Choice × Lsp.Msg)) : Lsp.run h (ms.filter fun x => !x.2.response) = Lsp.run h ms := by
  unfold Lsp.run
  generalize ({} : Lsp.Session) = s
  induction ms generalizing s with
  | nil => rfl
  | cons x ms ih =>
    rw [List.filter_cons, List.foldl_cons]
    cases hx : x.2.response with
    | false => exact ih _
    | true =>
      have : Lsp.Session.next h s x = s := by
        unfold Lsp.Session.next
        split
        · rfl
        · simp [Lsp.handle, hx]
      rw [this]
      exact ih s

/-- C102: the server does for a stream of frames what the messages in them ask for, in order; a frame that does not hold JSON
has no effect, nor has a response. -/
theorem C102 (h : Lsp.Host) {number : Bytes → Option Bytes} (hn : Faithful number) (choices : Nat → Lsp.Choice)
    (frames : List (List (Bytes × Bytes) × Bytes × Option (Json × Lsp.Call)))
    (hv : ∀ f ∈ frames, Valid f.1 f.2.1 ∧ f.2.1.length < 2 ^ 63)
    (hm : ∀ f ∈ frames, Carries f.2.1 f.2.2) :
    serve h (Wire.message number) choices (frames.flatMap fun f => frameBytes f.1 f.2.1) =
      Lsp.run h (frames.zipIdx.filterMap fun p => p.1.2.2.map fun m => (choices p.2, { id := m.1.text, call := m.2 })) := by
  have h1 := (C49_server h (Wire.message number) (fun _ => []) choices (frames.map fun f => (f.1, f.2.1)) (by
    intro f hf
    obtain ⟨g, hg, rfl⟩ := List.mem_map.1 hf
    exact hv g hg) (by intro s; decide)).1
  rw [List.flatMap_map, List.map_map] at h1
  rw [h1]
  rw [← run_noResponse]
  congr 1
  have key : ∀ (fs : List (List (Bytes × Bytes) × Bytes × Option (Json × Lsp.Call))) (k : Nat), (∀ f ∈ fs, f ∈ frames) →
      (((fs.map (·.2.1)).zipIdx k).filterMap (fun p => (Wire.message number p.1).map fun m => (choices p.2, m))).filter (fun x => !x.2.response) =
      (fs.zipIdx k).filterMap fun p => p.1.2.2.map fun m => (choices p.2, { id := m.1.text, call := m.2 }) := by
    intro fs
    induction fs with
    | nil => intro k _; rfl
    | cons f fs ih =>
      intro k hf
      rw [List.map_cons, List.zipIdx_cons, List.zipIdx_cons, List.filterMap_cons, List.filterMap_cons, ← ih _ fun g hg => hf g (by simp [hg])]
      have hf := hm f (hf f (by simp))
      cases hc : f.2.2 with
      | some p =>
        obtain ⟨id, c⟩ := p
        rw [hc] at hf
        obtain ⟨n, j, h1, h2, h3⟩ := hf
        simp [message_reads hn h2 h1 h3]
      | none =>
        rw [hc] at hf
        cases hmsg : Wire.message number f.2.1 with
        | none => simp
        | some m => simp [message_noCall hf hmsg]
  exact key frames 0 fun _ h => h

/-- The client's answer to a request of the server asks for nothing. -/
example : Carries b!"{\"id\":\"1\",\"result\":{\"applied\":true}}" none ∧
    Wire.message some b!"{\"id\":\"1\",\"result\":{\"applied\":true}}" = some { id := b!"\"1\"", response := true, call := .unknown [] } := by
  refine ⟨.inr ⟨2, .obj [(b!"id", .str b!"1"), (b!"result", .obj [(b!"applied", .bool true)])], by decide, ?_, ?_⟩, by decide +kernel⟩
  · refine ⟨[], _, [], by decide, .obj (s := b!"\"id\":\"1\",\"result\":{\"applied\":true}") ?_, by decide, rfl⟩
    refine .members (a := []) (k := b!"id") (b := []) (c := []) (s := b!"\"1\"") (d := []) (t := b!"\"result\":{\"applied\":true}")
      (by decide) (plain_chars (by decide)) (by decide) (by decide) (.str (s := b!"1") (plain_chars (by decide))) (by decide) ?_
    refine .member (a := []) (k := b!"result") (b := []) (c := []) (s := b!"{\"applied\":true}") (d := [])
      (by decide) (plain_chars (by decide)) (by decide) (by decide) (.obj (s := b!"\"applied\":true") ?_) (by decide)
    exact .member (a := []) (k := b!"applied") (b := []) (c := []) (s := b!"true") (d := [])
      (by decide) (plain_chars (by decide)) (by decide) (by decide) .true (by decide)
  · intro ms e
    cases e
    exact lacks_of (by decide) (by decide)

end Teal.Props
